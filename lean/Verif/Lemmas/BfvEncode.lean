import Verif.Lemmas.BfvPlain
/-!
# Lemmas on encoding and decoding
-/
namespace Fhe
open Nega Poly

/-! ## Slots -/

theorem slotPower_eq {n i N : Nat} (h1 : 1 ≤ n) (hpow : N = 2 ^ n) : 2 * revBits n (ParamsBuilder.slotIndex n i) + 1 = slotPower N i := by
  subst hpow
  have hN : 2 ^ n = 2 * 2 ^ (n - 1) := by rw [← pow_succ']; congr 1; omega
  have hh : 2 ^ n / 2 = 2 ^ (n - 1) := by omega
  unfold slotPower
  rw [hh, ← pow_succ']
  by_cases h : i < 2 ^ (n - 1)
  · rw [if_pos h, ParamsBuilder.slotIndex_fst h]
  · rw [if_neg h]
    obtain ⟨k, rfl⟩ := Nat.exists_eq_add_of_le (Nat.le_of_not_lt h)
    rw [Nat.add_sub_cancel_left, ParamsBuilder.slotIndex_snd]

theorem slotValue_eq {N t : Nat} (ζ : ZMod t) (m : Nega N (ZMod t)) (i : Nat) : slotValue ζ m i = evalFn (RingHom.id _) (ζ ^ slotPower N i) m := by
  unfold slotValue evalFn
  exact Finset.sum_congr rfl fun j _ => by rw [RingHom.id_apply, pow_mul]

theorem pbRow_self {N t : Nat} [NeZero t] (m : Nega N (ZMod t)) : pbRow m t = msgCoeffs m := by
  apply List.ext_getElem
  · simp [pbRow, msgCoeffs, tab]
  · intro i h1 h2
    have hi : i < N := by simpa [msgCoeffs] using h2
    simp only [pbRow, msgCoeffs, tab, List.getElem_map, List.getElem_range, List.getElem_ofFn, coeff_of_lt m hi]
    exact Nat.mod_eq_of_lt (ZMod.val_lt _)

variable {op : NttOperator} {n ω ωi : Nat}

theorem gather_eq (h : op.WF n ω ωi) {N : Nat} (hN : N = 2 ^ n) (m : Nega N (ZMod op.p.p)) :
    ∃ u, op.forward (msgCoeffs m) = some u ∧ u.length = N ∧
      (∀ i < N, u.getD (ParamsBuilder.slotIndex n i) 0 = (slotValue (ω : ZMod op.p.p) m i).val) ∧
      (tab N (ParamsBuilder.slotIndex n)).mapM (fun index => u[index]?) = some (tab N fun i => (slotValue (ω : ZMod op.p.p) m i).val) := by
  have : NeZero op.p.p := ⟨h.prime.ne_zero⟩
  have h3 := h.three_le
  have hf := (forward_pbRow h hN dvd_rfl m).1
  rw [pbRow_self] at hf
  have key : ∀ i < N, (tab N fun x => (evalFn (ZMod.castHom dvd_rfl (ZMod op.p.p)) ((ω : ZMod op.p.p) ^ (2 * revBits n x + 1)) m).val)[ParamsBuilder.slotIndex n i]? =
      some (slotValue (ω : ZMod op.p.p) m i).val := by
    intro i hi
    rw [tab_get? _ (by rw [hN]; exact ParamsBuilder.slotIndex_lt n i), slotValue_eq, ← slotPower_eq (by omega) hN]
    congr 3
    · exact RingHom.ext fun x => by simp
  refine ⟨_, hf, length_tab _ _, ?_, ?_⟩
  · intro i hi
    rw [List.getD_eq_getElem?_getD, key i hi]; rfl
  · exact tab_mapM key

theorem scatter_eq : ∀ {v map init : List Nat}, v.length ≤ map.length → map.Nodup → (∀ i ∈ map, i < init.length) →
    ∃ u, PlaintextVec.scatter v map init = some u ∧ u.length = init.length ∧ (∀ i, i < v.length → u.getD (map.getD i 0) 0 = v.getD i 0) ∧
      ∀ x, (∀ i < v.length, map.getD i 0 ≠ x) → u.getD x 0 = init.getD x 0
  | [], map, init, _, _, _ => ⟨init, rfl, rfl, fun i hi => by simp at hi, fun x _ => rfl⟩
  | v :: vs, [], init, h, _, _ => by simp at h
  | v :: vs, k :: ks, init, h, hn, hl => by
    have hk : k < init.length := hl k (by simp)
    obtain ⟨u, h1, h2, h3, h4⟩ := scatter_eq (v := vs) (map := ks) (init := init.set k v) (by simpa using h) (List.nodup_cons.1 hn).2
      (fun i hi => by rw [List.length_set]; exact hl i (List.mem_cons_of_mem _ hi))
    refine ⟨u, ?_, by rw [h2, List.length_set], ?_, ?_⟩
    · rw [PlaintextVec.scatter, check_eq hk]; exact h1
    · intro i hi
      cases i with
      | zero =>
        have hnot : ∀ i < vs.length, ks.getD i 0 ≠ k := by
          intro i hi heq
          have hi' : i < ks.length := by simp at h; omega
          rw [List.getD_eq_getElem _ _ hi'] at heq
          exact (List.nodup_cons.1 hn).1 (heq ▸ List.getElem_mem hi')
        simp only [List.getD_cons_zero]
        rw [h4 k hnot, List.getD_eq_getElem _ _ (by simpa using hk), List.getElem_set_self]
      | succ i => simp only [List.getD_cons_succ]; exact h3 i (by simpa using hi)
    · intro x hx
      rw [h4 x (fun i hi => by have := hx (i + 1) (by simpa using hi); simpa using this)]
      have hne : k ≠ x := by have := hx 0 (by simp); simpa using this
      rw [List.getD_eq_getElem?_getD, List.getElem?_set_ne hne, ← List.getD_eq_getElem?_getD]

/-- Encoding and decoding of slots by the operator. -/
theorem simd_op (h : op.WF n ω ωi) {N : Nat} (hN : N = 2 ^ n) {map : List Nat} (hmap : map = tab N (ParamsBuilder.slotIndex n)) : ∀ t, op.p.p = t →
    ∃ ζ : ZMod t, ζ = (ω : ZMod t) ∧ IsPrimitiveRoot ζ (2 * N) ∧
      (∀ m : Nega N (ZMod t), ∃ u, op.forward (msgCoeffs m) = some u ∧ map.mapM (fun index => u[index]?) = some (tab N fun i => (slotValue ζ m i).val)) ∧
      ∀ v : List Nat, v.length ≤ N → (∀ x ∈ v, x < t) → ∃ u, PlaintextVec.scatter v map (List.replicate N 0) = some u ∧
        ∃ m : Nega N (ZMod t), op.backward u = some (msgCoeffs m) ∧ op.backwardVt u = some (msgCoeffs m) ∧ ∀ i < N, slotValue ζ m i = (v.getD i 0 : ZMod t) := by
  rintro _ rfl
  have : NeZero op.p.p := ⟨h.prime.ne_zero⟩
  have h3 := h.three_le
  refine ⟨(ω : ZMod op.p.p), rfl, by rw [hN]; exact h.isPrimitiveRoot, fun m => ?_, fun v hv hlt => ?_⟩
  · obtain ⟨u, h1, -, -, h2⟩ := gather_eq h hN m
    exact ⟨u, h1, by rw [hmap]; exact h2⟩
  · have hnd : map.Nodup := by
      rw [hmap]
      unfold tab
      refine List.Nodup.map_on ?_ List.nodup_range
      intro i hi j hj hij
      exact ParamsBuilder.slotIndex_inj (by omega) (by rw [← hN]; exact List.mem_range.1 hi) (by rw [← hN]; exact List.mem_range.1 hj) hij
    have hml : map.length = N := by rw [hmap, length_tab]
    have hmg : ∀ i < N, map.getD i 0 = ParamsBuilder.slotIndex n i := fun i hi => by rw [hmap, NttOperator.tab_getD _ hi]
    obtain ⟨u, u1, u2, u3, u4⟩ := scatter_eq (v := v) (map := map) (init := List.replicate N 0) (by omega) hnd (by
      intro i hi
      rw [hmap] at hi
      obtain ⟨j, -, rfl⟩ := mem_tab.1 hi
      rw [List.length_replicate, hN]
      exact ParamsBuilder.slotIndex_lt n j)
    rw [List.length_replicate] at u2
    have hval : ∀ i < N, u.getD (ParamsBuilder.slotIndex n i) 0 = v.getD i 0 := by
      intro i hi
      by_cases hiv : i < v.length
      · rw [← hmg i hi]; exact u3 i hiv
      · rw [u4, List.getD_eq_default v _ (by omega)]
        · rw [List.getD_replicate _ (by rw [hN]; exact ParamsBuilder.slotIndex_lt n i)]
        · intro j hj heq
          rw [hmg j (by omega)] at heq
          have := ParamsBuilder.slotIndex_inj (n := n) (by omega) (by omega) (by omega) heq
          omega
    have hu : ∀ x ∈ u, x < op.p.p := by
      intro x hx
      obtain ⟨k, hk, rfl⟩ := List.mem_iff_getElem.1 hx
      by_cases he : ∃ i < v.length, map.getD i 0 = k
      · obtain ⟨i, hi, he⟩ := he
        have := u3 i hi
        rw [he, List.getD_eq_getElem _ _ hk] at this
        rw [this, List.getD_eq_getElem _ _ hi]
        exact hlt _ (List.getElem_mem hi)
      · push Not at he
        have := u4 k he
        rw [List.getD_eq_getElem _ _ hk, List.getD_replicate _ (by omega)] at this
        rw [this]; exact NeZero.pos _
    refine ⟨u, u1, ?_⟩
    have hus : u.length = op.size := by rw [u2, h.size, hN]
    have hu2 : ∀ x ∈ u, x < 2 * op.p.p := fun x hx => by have := hu x hx; omega
    have hal : (NttOperator.bwdVal op.p.p n ωi op.sizeInv u).length = N := by rw [NttOperator.length_bwdVal, hN]
    have ha : ∀ x ∈ NttOperator.bwdVal op.p.p n ωi op.sizeInv u, x < op.p.p := fun x hx => NttOperator.reduced_of_tab_val _ x hx
    have hm : msgCoeffs (msgOf N op.p.p (NttOperator.bwdVal op.p.p n ωi op.sizeInv u)) = NttOperator.bwdVal op.p.p n ωi op.sizeInv u := by
      rw [msgCoeffs_msgOf (NeZero.pos _) ha, padTo_of_length hal]
    refine ⟨msgOf N op.p.p (NttOperator.bwdVal op.p.p n ωi op.sizeInv u), ?_, ?_, ?_⟩
    · rw [hm, NttOperator.backward_eq h hus hu2]
    · rw [hm, NttOperator.backwardVt_eq h hus hu2]
    · intro i hi
      obtain ⟨w, w1, w2, w3, -⟩ := gather_eq h hN (msgOf N op.p.p (NttOperator.bwdVal op.p.p n ωi op.sizeInv u))
      have hw : w = u := by
        rw [hm, NttOperator.forward_eq h (by rw [hal, h.size, hN]) (fun x hx => by have := ha x hx; omega), NttOperator.fwdVal_bwdVal h hus hu, Option.some.injEq] at w1
        exact w1.symm
      have := w3 i hi
      rw [hw, hval i hi] at this
      rw [this, ZMod.natCast_zmod_val]

namespace ParWF
variable {b : Build} {par : BfvParameters}

theorem op_wf (hw : ParWF b n par) (hop : par.nttOperator = some op) :
    ∃ ω ωi m, op.WF n ω ωi ∧ op.p.p = par.plaintext.value ∧ par.plaintext.small = some m ∧ op.p = m := by
  have hn := hw.ntt
  unfold PlaintextModulus.nttOperator at hn
  rcases hw.plaintext with ⟨m, g1, g2, g3⟩ | ⟨-, g3⟩
  · rw [g3, hop] at hn
    obtain ⟨mw, mp, -⟩ := Modulus.WF_of_new g1
    obtain ⟨n', ω, ωi, h1, h2, h3⟩ := NttOperator.WF_of_new mw (by rw [mp]; exact fun i => hw.ok _ i (by omega)) hn
    rw [hw.degree] at h3
    obtain rfl := Nat.pow_right_injective (le_refl 2) h3
    exact ⟨ω, ωi, m, h1, by rw [h2, mp], g3, h2⟩
  · rw [g3, hop] at hn; simp at hn

theorem map_eq (hw : ParWF b n par) : par.indexMap = tab par.degree (ParamsBuilder.slotIndex n) := by
  have him := hw.indexMap
  have := hw.three_le
  have := hw.le_16
  rw [hw.degree, ParamsBuilder.indexMap_eq (by omega) (by omega), Option.some.injEq] at him
  rw [← him, hw.degree]

end ParWF

/-! ## Decoding -/

namespace Plaintext
variable {b : Build} {par : Par} {i : Nat} {l : ContextLevel} {pt : Plaintext}

theorem resolveEncoding_ok {e : Option Encoding} {enc : Encoding} (h : (pt.encoding = some enc ∧ (e = none ∨ e = some enc)) ∨ (pt.encoding = none ∧ e = some enc)) :
    pt.resolveEncoding e = Res.ok enc := by
  unfold resolveEncoding
  rcases h with ⟨h1, rfl | rfl⟩ | ⟨h1, rfl⟩
  · rw [h1]
  · rw [h1]; simp
  · rw [h1]

theorem mapM_toU64OrErr {v : List Nat} (h : ∀ x ∈ v, x < 2 ^ 64) : v.mapM toU64OrErr = Res.ok v := by
  induction v with
  | nil => rfl
  | cons a v ih =>
    rw [List.mapM_cons, ih (fun x hx => h x (List.mem_cons_of_mem _ hx)), toU64OrErr, if_pos (h a (by simp))]; rfl

theorem mapM_toU64OrErr_big {v : List Nat} (h : ∃ x ∈ v, 2 ^ 64 ≤ x) : v.mapM toU64OrErr = Res.err .valueTooLargeForU64 := by
  induction v with
  | nil => simp at h
  | cons a v ih =>
    rw [List.mapM_cons, toU64OrErr]
    split
    · rename_i ha
      rw [Res.ok_bind, ih]
      · rfl
      · obtain ⟨x, hx, h⟩ := h
        rcases List.mem_cons.1 hx with rfl | hx
        · omega
        · exact ⟨x, hx, h⟩
    · rfl

theorem values_wrap (v : List Nat) : PlaintextCoefficients.values (wrap par v) = v := by
  unfold wrap PlaintextCoefficients.values
  split <;> (rename_i h; split at h <;> (injections; try (symm; assumption)))

theorem valuesU64_wrap {v : List Nat} (h : ∀ x ∈ v, x < 2 ^ 64) : PlaintextCoefficients.valuesU64 (wrap par v) = Res.ok v := by
  unfold wrap PlaintextCoefficients.valuesU64
  split
  · rename_i w hw
    split at hw
    · injection hw with e; rw [e]
    · cases hw
  · rename_i w hw
    split at hw
    · cases hw
    · injection hw with e; rw [← e]; exact mapM_toU64OrErr h

theorem valuesU64_wrap_big {v : List Nat} (hs : par.plaintext.small = none) (h : ∃ x ∈ v, 2 ^ 64 ≤ x) :
    PlaintextCoefficients.valuesU64 (wrap par v) = Res.err .valueTooLargeForU64 := by
  unfold wrap PlaintextCoefficients.valuesU64
  rw [hs]
  exact mapM_toU64OrErr_big h

end Plaintext

/-! ## Encoding -/

namespace PlaintextVec
variable {b : Build} {par : Par} {i : Nat} {l : ContextLevel}

theorem chunk_eq (value : List Nat) {N k : Nat} (h : k * N ≤ value.length) : chunk value N k = some ((value.drop (k * N)).take N) := by
  unfold chunk
  rw [check_eq (by omega)]
  show some _ = _
  congr 1
  apply List.ext_getElem?
  intro j
  rw [List.getElem?_drop, List.getElem?_take, List.getElem?_take, List.getElem?_drop]
  by_cases hj : j < N
  · rw [if_pos hj]
    by_cases hv : k * N + j < value.length
    · rw [if_pos (by omega)]
    · rw [if_neg (by omega), List.getElem?_eq_none (by omega)]
  · rw [if_neg hj, if_neg (by omega)]

theorem mapM_ok {α β : Type} {v : List α} {f : α → Res β} {g : α → β} (h : ∀ x ∈ v, f x = Res.ok (g x)) : v.mapM f = Res.ok (v.map g) := by
  induction v with
  | nil => rfl
  | cons a v ih =>
    rw [List.mapM_cons, ih (fun x hx => h x (List.mem_cons_of_mem _ hx)), h a (by simp)]; rfl

/-- The number of plaintexts. -/
def count (len N : Nat) : Nat := max ((len + N - 1) / N) 1

theorem count_mul {len N : Nat} (hN : 0 < N) {k : Nat} (hk : k < count len N) : k * N ≤ len := by
  unfold count at hk
  rcases Nat.lt_or_ge k 1 with h | h
  · have : k = 0 := by omega
    subst this; omega
  · have h1 : k < (len + N - 1) / N := by omega
    have h2 := (Nat.lt_div_iff_mul_lt hN).1 h1
    omega

theorem tryEncodeWith_eq {value : List Nat} {encoding : Encoding} (hN : par.degree ≠ 0) (hl : par.levels[encoding.level]? = some l)
    (hop : encoding.kind = .simd → par.nttOperator ≠ none) {F : List Nat → Context → Res (Poly .ntt)} {P : Nat → Poly .ntt}
    (hF : ∀ k < count value.length par.degree, F ((value.drop (k * par.degree)).take par.degree) l.ctx = Res.ok (P k)) :
    tryEncodeWith value encoding par F = Res.ok ((List.range (count value.length par.degree)).map fun k => { par, encoding := some encoding, polyNtt := P k }) := by
  unfold tryEncodeWith
  rw [if_neg (fun h => hop h.1 h.2)]
  have hc : par.contextAtLevel encoding.level = Res.ok l.ctx := ParWF.contextAtLevel_iff.2 ⟨l, hl, rfl⟩
  rw [hc, Res.ok_bind, check_eq hN, Res.lift_some, Res.ok_bind]
  refine mapM_ok fun k hk => ?_
  have hk' : k < count value.length par.degree := List.mem_range.1 hk
  rw [chunk_eq value (count_mul (by omega) hk'), Res.lift_some, Res.ok_bind, hF k hk', Res.ok_bind]
  rfl

/-- What one chunk of values encodes. -/
def ChunkMsg (par : BfvParameters) (kind : EncodingKind) (ζ : ZMod par.plaintext.value) (w : List Nat) (m : par.Msg) : Prop :=
  match kind with
  | .poly => msgCoeffs m = padTo par.degree w
  | .simd => ∀ i < par.degree, slotValue ζ m i = (w.getD i 0 : ZMod par.plaintext.value)

theorem encodeU64Chunk_eq (hw : ParWF b n par.toBfvParameters) (hl : par.levels[i]? = some l) (hQ : par.plaintext.value ≤ l.ctx.modulus)
    {kind : EncodingKind} {vt : Bool} {w : List Nat} {m : par.Msg}
    (h : chunkCoefficients w kind par vt = Res.ok (msgCoeffs m)) (h64 : ∀ x ∈ msgCoeffs m, x < 2 ^ 64) :
    encodeU64Chunk kind par vt w l.ctx = Res.ok (enc l.ctx .ntt vt (ofNats l.ctx (msgCoeffs m))) := by
  obtain ⟨h1, h2, h3⟩ := hw.ctxWF hl
  have ht := hw.t_pos
  have : NeZero par.plaintext.value := ⟨by omega⟩
  unfold encodeU64Chunk
  rw [h, Res.ok_bind, tryFromU64_full h1 (by rw [length_msgCoeffs, h3]) h64 (fun x hx => by have := msgCoeffs_lt m x hx; omega), Res.math_ok, Res.ok_bind,
    intoNtt_enc h1, Res.lift_some]

/-- A root of unity that belongs to the slots of the parameters. -/
structure SlotRoot (par : BfvParameters) (ζ : ZMod par.plaintext.value) : Prop where
  prim : par.nttOperator ≠ none → IsPrimitiveRoot ζ (2 * par.degree)
  decode : ∀ op, par.nttOperator = some op → ∀ m : par.Msg, ∃ u, op.forward (msgCoeffs m) = some u ∧
    par.indexMap.mapM (fun index => u[index]?) = some (tab par.degree fun i => (slotValue ζ m i).val)
  encode : ∀ op, par.nttOperator = some op → ∀ v : List Nat, v.length ≤ par.degree → (∀ x ∈ v, x < par.plaintext.value) →
    ∃ u, scatter v par.indexMap (List.replicate par.degree 0) = some u ∧
      ∃ m : par.Msg, op.backward u = some (msgCoeffs m) ∧ op.backwardVt u = some (msgCoeffs m) ∧ ∀ i < par.degree, slotValue ζ m i = (v.getD i 0 : ZMod par.plaintext.value)

theorem exists_root {par : BfvParameters} (hw : ParWF b n par) : ∃ ζ, SlotRoot par ζ := by
  cases hop : par.nttOperator with
  | none => exact ⟨0, fun h => absurd hop h, fun op h => (by rw [hop] at h; cases h), fun op h => (by rw [hop] at h; cases h)⟩
  | some op =>
    obtain ⟨ω, ωi, m, h1, h2, -⟩ := hw.op_wf hop
    obtain ⟨ζ, -, z1, z2, z3⟩ := simd_op h1 hw.degree hw.map_eq _ h2
    refine ⟨ζ, fun _ => z1, fun op' h' => ?_, fun op' h' => ?_⟩
    · rw [hop] at h'; cases h'; exact z2
    · rw [hop] at h'; cases h'; exact z3

theorem chunkCoefficients_eq (hw : ParWF b n par.toBfvParameters) {ζ : ZMod par.plaintext.value} (hζ : SlotRoot par.toBfvParameters ζ) {kind : EncodingKind}
    (hk : kind = .simd → par.nttOperator ≠ none) (vt : Bool) {w : List Nat} (hl : w.length ≤ par.degree) (hlt : ∀ x ∈ w, x < par.plaintext.value) :
    ∃ m : par.Msg, ChunkMsg par.toBfvParameters kind ζ w m ∧ chunkCoefficients w kind par vt = Res.ok (msgCoeffs m) := by
  have ht := hw.t_pos
  cases kind with
  | poly =>
    have hm := msgCoeffs_msgOf (N := par.degree) (by omega : 0 < par.plaintext.value) hlt
    refine ⟨msgOf _ _ w, hm, ?_⟩
    unfold chunkCoefficients
    rw [hm, copyPrefix_eq hl, Res.lift_some, padTo_eq_tab]
  | simd =>
    obtain ⟨op, hop⟩ := Option.ne_none_iff_exists'.1 (hk rfl)
    obtain ⟨u, h1, m, h2, h3, h4⟩ := hζ.encode op hop w hl hlt
    refine ⟨m, h4, ?_⟩
    unfold chunkCoefficients
    rw [h1, Res.lift_some, Res.ok_bind, hop]
    cases vt
    · simp only [Bool.false_eq_true, if_false]; rw [h2]; rfl
    · simp only [if_true]; rw [h3]; rfl

theorem encodeU64_msg (hw : ParWF b n par.toBfvParameters) {ζ : ZMod par.plaintext.value} (hζ : SlotRoot par.toBfvParameters ζ) {encoding : Encoding}
    (hl : par.levels[encoding.level]? = some l) (hQ : par.plaintext.value ≤ l.ctx.modulus) (hk : encoding.kind = .simd → par.nttOperator ≠ none) (vt : Bool)
    {v : List Nat} (hlt : ∀ x ∈ v, x < par.plaintext.value) (h64 : ∀ x ∈ v, x < 2 ^ 64) :
    ∃ ms : Nat → par.Msg, tryEncodeU64 v encoding par vt = Res.ok ((List.range (count v.length par.degree)).map fun k =>
        { par, encoding := some encoding, polyNtt := enc l.ctx .ntt vt (ofNats l.ctx (msgCoeffs (ms k))) }) ∧
      ∀ k, ChunkMsg par.toBfvParameters encoding.kind ζ ((v.drop (k * par.degree)).take par.degree) (ms k) := by
  have ht := hw.t_pos
  have : NeZero par.plaintext.value := ⟨by omega⟩
  have hc : ∀ k, ∃ m : par.Msg, ChunkMsg par.toBfvParameters encoding.kind ζ ((v.drop (k * par.degree)).take par.degree) m ∧
      chunkCoefficients ((v.drop (k * par.degree)).take par.degree) encoding.kind par vt = Res.ok (msgCoeffs m) := fun k =>
    chunkCoefficients_eq hw hζ hk vt (by rw [List.length_take]; omega) fun x hx => hlt x (List.mem_of_mem_drop (List.mem_of_mem_take hx))
  choose ms h1 h2 using hc
  refine ⟨ms, tryEncodeWith_eq (by rw [hw.degree]; positivity) hl hk fun k _ => encodeU64Chunk_eq hw hl hQ (h2 k) ?_, h1⟩
  cases hs : encoding.kind with
  | simd =>
    obtain ⟨op, hop⟩ := Option.ne_none_iff_exists'.1 (hk hs)
    obtain ⟨ω, ωi, m, g1, g2, -⟩ := hw.op_wf hop
    have := g1.modulus.lt
    intro x hx
    have := msgCoeffs_lt (ms k) x hx
    omega
  | poly =>
    have := h1 k
    rw [hs] at this
    rw [show msgCoeffs (ms k) = _ from this]
    exact padTo_lt (by norm_num) fun x hx => h64 x (List.mem_of_mem_drop (List.mem_of_mem_take hx))

theorem encodeBig_msg (hw : ParWF b n par.toBfvParameters) {ζ : ZMod par.plaintext.value} (hζ : SlotRoot par.toBfvParameters ζ) {encoding : Encoding}
    (hl : par.levels[encoding.level]? = some l) (hQ : par.plaintext.value ≤ l.ctx.modulus) (hk : encoding.kind = .simd → par.nttOperator ≠ none)
    {v : List Nat} (hlt : ∀ x ∈ v, x < par.plaintext.value) :
    ∃ ms : Nat → par.Msg, tryEncodeBigUint v encoding par = Res.ok ((List.range (count v.length par.degree)).map fun k =>
        { par, encoding := some encoding, polyNtt := enc l.ctx .ntt false (ofNats l.ctx (msgCoeffs (ms k))) }) ∧
      ∀ k, ChunkMsg par.toBfvParameters encoding.kind ζ ((v.drop (k * par.degree)).take par.degree) (ms k) := by
  have ht := hw.t_pos
  have : NeZero par.plaintext.value := ⟨by omega⟩
  obtain ⟨w1, w2, w3⟩ := hw.ctxWF hl
  have hsub : ∀ k, ∀ x ∈ (v.drop (k * par.degree)).take par.degree, x < par.plaintext.value := fun k x hx => hlt x (List.mem_of_mem_drop (List.mem_of_mem_take hx))
  have hlen : ∀ k, ((v.drop (k * par.degree)).take par.degree).length ≤ par.degree := fun k => by rw [List.length_take]; omega
  have hc : ∀ k, ∃ m : par.Msg, ChunkMsg par.toBfvParameters encoding.kind ζ ((v.drop (k * par.degree)).take par.degree) m ∧
      chunkCoefficients ((v.drop (k * par.degree)).take par.degree) encoding.kind par false = Res.ok (msgCoeffs m) := fun k =>
    chunkCoefficients_eq hw hζ hk false (hlen k) (hsub k)
  choose ms h1 h2 using hc
  refine ⟨ms, tryEncodeWith_eq (by rw [hw.degree]; positivity) hl hk fun k _ => ?_, h1⟩
  cases hs : encoding.kind with
  | simd =>
    obtain ⟨op, hop⟩ := Option.ne_none_iff_exists'.1 (hk hs)
    obtain ⟨ω, ωi, m, g1, g2, -⟩ := hw.op_wf hop
    have := g1.modulus.lt
    unfold encodeBigUintChunk
    rw [Plaintext.mapM_toU64OrErr (fun x hx => by have := hsub k x hx; omega), Res.ok_bind]
    refine encodeU64Chunk_eq hw hl hQ (by rw [← hs]; exact h2 k) ?_
    intro x hx
    have := msgCoeffs_lt (ms k) x hx
    omega
  | poly =>
    have := h1 k
    rw [hs] at this
    unfold encodeBigUintChunk
    rw [copyPrefix_eq (hlen k), Res.lift_some, Res.ok_bind, ← padTo_eq_tab, ← show msgCoeffs (ms k) = _ from this,
      tryFromBigUint_eq w1 (by rw [length_msgCoeffs, w3]), Res.math_ok, Res.ok_bind, intoNtt_enc w1, Res.lift_some]

end PlaintextVec

namespace Plaintext
variable {b : Build} {par : Par} {i : Nat} {l : ContextLevel} {pt : Plaintext}

/-- What a plaintext decodes to. -/
def decoded (par : BfvParameters) (kind : EncodingKind) (ζ : ZMod par.plaintext.value) (m : par.Msg) : List Nat :=
  match kind with
  | .poly => msgCoeffs m
  | .simd => tab par.degree fun i => (slotValue ζ m i).val

theorem decoded_lt {par : BfvParameters} (ht : 2 ≤ par.plaintext.value) (kind : EncodingKind) (ζ : ZMod par.plaintext.value) (m : par.Msg) :
    ∀ x ∈ decoded par kind ζ m, x < par.plaintext.value := by
  have : NeZero par.plaintext.value := ⟨by omega⟩
  cases kind with
  | poly => exact msgCoeffs_lt m
  | simd => exact NttOperator.reduced_of_tab_val _

theorem decodeSimd_eq {ζ : ZMod par.plaintext.value} (hζ : PlaintextVec.SlotRoot par.toBfvParameters ζ) (hp : pt.par = par)
    (hop : par.nttOperator ≠ none) (m : par.Msg) : pt.decodeSimdU64 (msgCoeffs m) = Res.ok (decoded par.toBfvParameters .simd ζ m) := by
  obtain ⟨op, hop⟩ := Option.ne_none_iff_exists'.1 hop
  obtain ⟨u, h1, h2⟩ := hζ.decode op hop m
  unfold decodeSimdU64
  rw [hp, hop]
  simp only []
  rw [h1, Res.lift_some, Res.ok_bind, h2, Res.lift_some]
  rfl

theorem small_of_op (hw : ParWF b n par.toBfvParameters) (hop : par.nttOperator ≠ none) : par.plaintext.value < 2 ^ 62 := by
  obtain ⟨op, hop⟩ := Option.ne_none_iff_exists'.1 hop
  obtain ⟨ω, ωi, m, g1, g2, -⟩ := hw.op_wf hop
  rw [← g2]; exact g1.modulus.lt

theorem decodeU64_eq (hw : ParWF b n par.toBfvParameters) {ζ : ZMod par.plaintext.value} (hζ : PlaintextVec.SlotRoot par.toBfvParameters ζ) {m : par.Msg}
    (h : pt.Holds par i m) {e : Option Encoding} {enc : Encoding} (he : pt.resolveEncoding e = Res.ok enc) (hop : enc.kind = .simd → par.nttOperator ≠ none)
    (h64 : ∀ x ∈ msgCoeffs m, x < 2 ^ 64) : pt.decodeU64 e = Res.ok (decoded par.toBfvParameters enc.kind ζ m) := by
  unfold decodeU64
  rw [he, Res.ok_bind, h.coefficients hw, Res.lift_some, Res.ok_bind, valuesU64_wrap h64, Res.ok_bind]
  cases hk : enc.kind with
  | poly => rfl
  | simd => exact decodeSimd_eq hζ h.par_eq (hop hk) m

theorem decodeBig_eq (hw : ParWF b n par.toBfvParameters) {ζ : ZMod par.plaintext.value} (hζ : PlaintextVec.SlotRoot par.toBfvParameters ζ) {m : par.Msg}
    (h : pt.Holds par i m) {e : Option Encoding} {enc : Encoding} (he : pt.resolveEncoding e = Res.ok enc) (hop : enc.kind = .simd → par.nttOperator ≠ none) :
    pt.decodeBigUint e = Res.ok (decoded par.toBfvParameters enc.kind ζ m) := by
  have ht := hw.t_pos
  have : NeZero par.plaintext.value := ⟨by omega⟩
  unfold decodeBigUint
  rw [he, Res.ok_bind, h.coefficients hw, Res.lift_some, Res.ok_bind, values_wrap]
  cases hk : enc.kind with
  | poly => rfl
  | simd =>
    have := small_of_op hw (hop hk)
    simp only []
    rw [mapM_toU64OrErr (fun x hx => by have := msgCoeffs_lt m x hx; omega), Res.ok_bind]
    exact decodeSimd_eq hζ h.par_eq (hop hk) m

theorem decoded_chunk (hw : ParWF b n par.toBfvParameters) {kind : EncodingKind} {ζ : ZMod par.plaintext.value} {w : List Nat} {m : par.Msg}
    (h : PlaintextVec.ChunkMsg par.toBfvParameters kind ζ w m) (hlt : ∀ x ∈ w, x < par.plaintext.value) : decoded par.toBfvParameters kind ζ m = padTo par.degree w := by
  have ht := hw.t_pos
  cases kind with
  | poly => exact h
  | simd =>
    unfold decoded
    rw [padTo_eq_tab]
    refine tab_congr fun i hi => ?_
    rw [h i hi, ZMod.val_natCast, Nat.mod_eq_of_lt]
    exact padTo_lt (by omega) hlt (N := i + 1) _ (List.mem_map.2 ⟨i, by simp, rfl⟩)

theorem encodeU64_eq (hw : ParWF b n par.toBfvParameters) {ζ : ZMod par.plaintext.value} (hζ : PlaintextVec.SlotRoot par.toBfvParameters ζ) {encoding : Encoding}
    (hl : par.levels[encoding.level]? = some l) (hQ : par.plaintext.value ≤ l.ctx.modulus) (hk : encoding.kind = .simd → par.nttOperator ≠ none) (vt : Bool)
    {v : List Nat} (hv : v.length ≤ par.degree) (hlt : ∀ x ∈ v, x < par.plaintext.value) (h64 : ∀ x ∈ v, x < 2 ^ 64) :
    ∃ m : par.Msg, tryEncodeU64 v encoding par vt = Res.ok { par, encoding := some encoding, polyNtt := Fhe.enc l.ctx .ntt vt (ofNats l.ctx (msgCoeffs m)) } ∧
      PlaintextVec.ChunkMsg par.toBfvParameters encoding.kind ζ v m := by
  obtain ⟨ms, h1, h2⟩ := PlaintextVec.encodeU64_msg hw hζ hl hQ hk vt hlt h64
  refine ⟨ms 0, ?_, ?_⟩
  · unfold tryEncodeU64
    rw [if_neg (by omega), h1, Res.ok_bind]
    have : 0 < PlaintextVec.count v.length par.degree := by unfold PlaintextVec.count; omega
    rw [List.getElem?_map, List.getElem?_range this]
    rfl
  · have := h2 0
    rwa [Nat.zero_mul, List.drop_zero, List.take_of_length_le hv] at this

theorem encodeBig_eq (hw : ParWF b n par.toBfvParameters) {ζ : ZMod par.plaintext.value} (hζ : PlaintextVec.SlotRoot par.toBfvParameters ζ) {encoding : Encoding}
    (hl : par.levels[encoding.level]? = some l) (hQ : par.plaintext.value ≤ l.ctx.modulus) (hk : encoding.kind = .simd → par.nttOperator ≠ none)
    {v : List Nat} (hv : v.length ≤ par.degree) (hlt : ∀ x ∈ v, x < par.plaintext.value) :
    ∃ m : par.Msg, tryEncodeBigUint v encoding par = Res.ok { par, encoding := some encoding, polyNtt := Fhe.enc l.ctx .ntt false (ofNats l.ctx (msgCoeffs m)) } ∧
      PlaintextVec.ChunkMsg par.toBfvParameters encoding.kind ζ v m := by
  obtain ⟨ms, h1, h2⟩ := PlaintextVec.encodeBig_msg hw hζ hl hQ hk hlt
  refine ⟨ms 0, ?_, ?_⟩
  · unfold tryEncodeBigUint
    rw [if_neg (by omega), h1, Res.ok_bind]
    have : 0 < PlaintextVec.count v.length par.degree := by unfold PlaintextVec.count; omega
    rw [List.getElem?_map, List.getElem?_range this]
    rfl
  · have := h2 0
    rwa [Nat.zero_mul, List.drop_zero, List.take_of_length_le hv] at this

theorem holds_enc (hw : ParWF b n par.toBfvParameters) (hl : par.levels[i]? = some l) (hQ : par.plaintext.value ≤ l.ctx.modulus) (e : Option Encoding) (vt : Bool) (m : par.Msg) :
    Holds par { par, encoding := e, polyNtt := Fhe.enc l.ctx .ntt vt (ofNats l.ctx (msgCoeffs m)) } i m := by
  have ht := hw.t_pos
  have : NeZero par.plaintext.value := ⟨by omega⟩
  exact holds_of_enc hw rfl hl rfl fun x hx => by have := msgCoeffs_lt m x hx; omega

/-- A message is determined by its slots. -/
theorem slots_inj (hw : ParWF b n par.toBfvParameters) (hop : par.nttOperator ≠ none) :
    ∃ ζ : ZMod par.plaintext.value, PlaintextVec.SlotRoot par.toBfvParameters ζ ∧
      ∀ m m' : par.Msg, (∀ i < par.degree, slotValue ζ m i = slotValue ζ m' i) → m = m' := by
  have ht := hw.t_pos
  have : NeZero par.plaintext.value := ⟨by omega⟩
  obtain ⟨op, hop'⟩ := Option.ne_none_iff_exists'.1 hop
  obtain ⟨ω, ωi, md, g1, g2, -⟩ := hw.op_wf hop'
  have main : ∀ t, op.p.p = t → ∀ N, N = 2 ^ n → ∀ ζ : ZMod t, ζ = (ω : ZMod t) → ∀ m m' : Nega N (ZMod t), (∀ i < N, slotValue ζ m i = slotValue ζ m' i) → m = m' := by
    rintro _ rfl N hN ζ rfl m m' h
    have : NeZero op.p.p := ⟨g1.prime.ne_zero⟩
    have h3 := g1.three_le
    obtain ⟨u, u1, u2, u3, -⟩ := gather_eq g1 hN m
    obtain ⟨u', v1, v2, v3, -⟩ := gather_eq g1 hN m'
    have hu : u = u' := by
      apply List.ext_getElem (by omega)
      intro k k1 k2
      have hsurj : ∃ i < N, ParamsBuilder.slotIndex n i = k := by
        have := Finset.surjOn_of_injOn_of_card_le (s := Finset.range N) (t := Finset.range N) (ParamsBuilder.slotIndex n)
          (fun i hi => by simp only [Finset.coe_range, Set.mem_Iio, hN]; exact ParamsBuilder.slotIndex_lt n i)
          (fun i hi j hj hij => ParamsBuilder.slotIndex_inj (by omega) (by simpa [hN] using hi) (by simpa [hN] using hj) hij) (le_refl _)
        obtain ⟨i, hi, e⟩ := this (show k ∈ (Finset.range N : Set Nat) by simp only [Finset.coe_range, Set.mem_Iio]; omega)
        exact ⟨i, by simpa using hi, e⟩
      obtain ⟨i, hi, rfl⟩ := hsurj
      have a := u3 i hi
      have c := v3 i hi
      rw [List.getD_eq_getElem _ _ k1] at a
      rw [List.getD_eq_getElem _ _ k2] at c
      rw [a, c, h i hi]
    subst hu
    have inv : ∀ w : Nega N (ZMod op.p.p), op.forward (msgCoeffs w) = some u → op.backward u = some (msgCoeffs w) := by
      intro w hw'
      have hl : (msgCoeffs w).length = op.size := by rw [length_msgCoeffs, g1.size, hN]
      rw [NttOperator.forward_eq g1 hl (fun x hx => by have := msgCoeffs_lt w x hx; omega), Option.some.injEq] at hw'
      rw [← hw', NttOperator.backward_eq g1 (by rw [NttOperator.length_fwdVal, g1.size])
        (fun x hx => by have := NttOperator.reduced_of_tab_val _ x hx; omega), NttOperator.bwdVal_fwdVal g1 hl (msgCoeffs_lt w)]
    have heq : msgCoeffs m = msgCoeffs m' := by
      have a := inv m u1
      rw [inv m' v1] at a
      simpa using a.symm
    funext j
    have := congrArg (fun l => l.getD j 0) heq
    simp only [msgCoeffs_getD, coeff_val] at this
    exact ZMod.val_injective _ this
  have hζ : ∃ ζ : ZMod par.plaintext.value, ζ = (ω : ZMod par.plaintext.value) ∧ PlaintextVec.SlotRoot par.toBfvParameters ζ := by
    have key : ∀ t, op.p.p = t → ∀ N, N = 2 ^ n → ∀ map, map = tab N (ParamsBuilder.slotIndex n) → ∃ ζ : ZMod t, ζ = (ω : ZMod t) ∧ IsPrimitiveRoot ζ (2 * N) ∧
      (∀ m : Nega N (ZMod t), ∃ u, op.forward (msgCoeffs m) = some u ∧ map.mapM (fun index => u[index]?) = some (tab N fun i => (slotValue ζ m i).val)) ∧
      ∀ v : List Nat, v.length ≤ N → (∀ x ∈ v, x < t) → ∃ u, PlaintextVec.scatter v map (List.replicate N 0) = some u ∧
        ∃ m : Nega N (ZMod t), op.backward u = some (msgCoeffs m) ∧ op.backwardVt u = some (msgCoeffs m) ∧ ∀ i < N, slotValue ζ m i = (v.getD i 0 : ZMod t) :=
      fun t ht N hN map hmap => simd_op g1 hN hmap t ht
    obtain ⟨ζ, z0, z1, z2, z3⟩ := key _ g2 _ hw.degree _ hw.map_eq
    refine ⟨ζ, z0, fun _ => z1, fun op' h' => ?_, fun op' h' => ?_⟩
    · rw [hop'] at h'; cases h'; exact z2
    · rw [hop'] at h'; cases h'; exact z3
  obtain ⟨ζ, z0, z1⟩ := hζ
  exact ⟨ζ, z1, main _ g2 _ hw.degree ζ z0⟩

end Plaintext
end Fhe
