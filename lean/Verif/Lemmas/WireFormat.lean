import Verif.Spec.Wire
import Verif.Lemmas.Wire
import Verif.Model.BfvEval
import Verif.Model.BfvRgsw
import Mathlib.Tactic.IntervalCases
/-!
# Lemmas about the message formats
-/
set_option linter.unusedSimpArgs false
set_option linter.unnecessarySeqFocus false

namespace Fhe.Wire

variable {M : Type} {merge : M → Field → Option M} {init : M} {d : Decl} {depth : Nat} {bytes bytes' : List Nat}

/-- The messages are merged as declared. -/
structure Reads (d : Decl) (merge : M → Field → Option M) : Prop where
  declared : ∀ m f ok, d f.1 = some ok → ((∃ m', merge m f = some m') ↔ ok f.2)
  other : ∀ m f, 1 ≤ f.1 → d f.1 = none → merge m f = some m

theorem readKey_pos {l rest : List Nat} {t w : Nat} (h : readKey l = some (t, w, rest)) : 1 ≤ t := by
  unfold readKey at h
  simp only [Option.bind_eq_bind, Option.bind_eq_some_iff, Prod.exists] at h
  obtain ⟨key, r, -, h2⟩ := h
  split at h2
  · rename_i h3
    simp only [Option.pure_def, Option.some.injEq, Prod.mk.injEq] at h2
    have := h3.2.2
    omega
  · cases h2

theorem readFields_pos : ∀ (fuel depth : Nat) (l : List Nat) (fs : List Field), readFields fuel depth l = some fs → ∀ f ∈ fs, 1 ≤ f.1
  | fuel, _, [], fs, h => by
    have : fs = [] := by cases fuel <;> simpa [readFields] using h.symm
    subst this; simp
  | 0, _, _ :: _, _, h => by simp [readFields] at h
  | fuel + 1, depth, x :: l, fs, h => by
    rw [readFields] at h
    · simp only [Option.bind_eq_bind, Option.bind_eq_some_iff, Prod.exists, Option.pure_def, Option.some.injEq] at h
      obtain ⟨t, w, rest, h1, v, rest', -, fs', h3, rfl⟩ := h
      intro f hf
      rcases List.mem_cons.1 hf with rfl | hf
      · exact readKey_pos h1
      · exact readFields_pos fuel depth rest' fs' h3 f hf
    · simp

theorem Reads.fold (h : Reads d merge) : ∀ (fs : List Field) (m : M), (∀ f ∈ fs, 1 ≤ f.1) → ((∃ m', fs.foldlM merge m = some m') ↔ ∀ f ∈ fs, ∀ ok, d f.1 = some ok → ok f.2)
  | [], m, _ => by simp
  | f :: fs, m, hp => by
    have hp' : ∀ f ∈ fs, 1 ≤ f.1 := fun f hf => hp f (by simp [hf])
    rw [List.forall_mem_cons]
    simp only [List.foldlM_cons, Option.bind_eq_bind, Option.bind_eq_some_iff]
    cases hd : d f.1 with
    | none =>
      rw [h.other m f (hp f (by simp)) hd]
      simp [h.fold fs m hp']
    | some ok =>
      constructor
      · rintro ⟨m', m1, h1, h2⟩
        refine ⟨fun ok' ho => ?_, (h.fold fs m1 hp').1 ⟨m', h2⟩⟩
        cases ho
        exact (h.declared m f ok hd).1 ⟨m1, h1⟩
      · rintro ⟨h1, h2⟩
        obtain ⟨m1, h1⟩ := (h.declared m f ok hd).2 (h1 ok rfl)
        obtain ⟨m', h2⟩ := (h.fold fs m1 hp').2 h2
        exact ⟨m', m1, h1, h2⟩

theorem Reads.decode (h : Reads d merge) : (∃ m, Wire.decode merge init depth bytes = some m) ↔ Fits d depth bytes := by
  unfold Wire.decode Fits
  cases hf : readFields bytes.length depth bytes with
  | none => simp
  | some fs => simpa using h.fold fs init (readFields_pos _ _ _ _ hf)

theorem Reads.decode_none (h : Reads d merge) (hn : ¬ Fits d depth bytes) : Wire.decode merge init depth bytes = none := by
  rw [← h.decode (init := init)] at hn
  cases hd : Wire.decode merge init depth bytes with
  | none => rfl
  | some m => exact absurd ⟨m, hd⟩ hn

theorem Reads.fold_filter (h : Reads d merge) : ∀ (fs : List Field) (m : M), (∀ f ∈ fs, 1 ≤ f.1) → fs.foldlM merge m = (fs.filter fun f => (d f.1).isSome).foldlM merge m
  | [], _, _ => rfl
  | f :: fs, m, hp => by
    have ih := fun m => h.fold_filter fs m fun f hf => hp f (by simp [hf])
    cases hd : d f.1 with
    | none => rw [List.foldlM_cons, h.other m f (hp f (by simp)) hd, List.filter_cons_of_neg (by simp [hd])]; exact ih m
    | some ok =>
      rw [List.filter_cons_of_pos (by simp [hd]), List.foldlM_cons, List.foldlM_cons]
      congr 1
      funext m
      exact ih m

theorem Reads.same (h : Reads d merge) (hs : SameFields d depth bytes bytes') : Wire.decode merge init depth bytes = Wire.decode merge init depth bytes' := by
  obtain ⟨fs, fs', h1, h2, h3⟩ := hs
  unfold Wire.decode
  rw [h1, h2]
  show fs.foldlM merge init = fs'.foldlM merge init
  rw [h.fold_filter fs init (readFields_pos _ _ _ _ h1), h.fold_filter fs' init (readFields_pos _ _ _ _ h2), h3]

/-! ## The formats -/

theorem lt_or_eq_add (t k : Nat) : t < k ∨ ∃ j, t = j + k := (Nat.lt_or_ge t k).imp_right fun h => ⟨t - k, by omega⟩

theorem exists_bind {α β : Type} {o : Option α} {f : α → β} : (∃ b, (o.bind fun a => some (f a)) = some b) ↔ ∃ a, o = some a := by
  cases o <;> simp

theorem reads_rq : Reads rqDecl RqMsg.merge where
  declared m f ok h := by
    obtain ⟨t, v⟩ := f
    rcases lt_or_eq_add t 5 with ht | ⟨j, rfl⟩
    · interval_cases t <;> simp [rqDecl] at h <;> subst h <;> cases v <;> simp [RqMsg.merge, Value.Number, Value.Bytes, Value.Numbers, Value.Message, exists_bind]
    · simp [rqDecl] at h
  other m f hp h := by
    obtain ⟨t, v⟩ := f
    rcases lt_or_eq_add t 5 with ht | ⟨j, rfl⟩
    · interval_cases t <;> simp_all [rqDecl, RqMsg.merge]
    · cases v <;> simp [RqMsg.merge]

theorem reads_ciphertext : Reads ciphertextDecl CiphertextMsg.merge where
  declared m f ok h := by
    obtain ⟨t, v⟩ := f
    rcases lt_or_eq_add t 4 with ht | ⟨j, rfl⟩
    · interval_cases t <;> simp [ciphertextDecl] at h <;> subst h <;> cases v <;> simp [CiphertextMsg.merge, Value.Number, Value.Bytes, Value.Numbers, Value.Message, exists_bind]
    · simp [ciphertextDecl] at h
  other m f hp h := by
    obtain ⟨t, v⟩ := f
    rcases lt_or_eq_add t 4 with ht | ⟨j, rfl⟩
    · interval_cases t <;> simp_all [ciphertextDecl, CiphertextMsg.merge]
    · cases v <;> simp [CiphertextMsg.merge]

theorem reads_ksk : Reads keySwitchingKeyDecl KeySwitchingKeyMsg.merge where
  declared m f ok h := by
    obtain ⟨t, v⟩ := f
    rcases lt_or_eq_add t 7 with ht | ⟨j, rfl⟩
    · interval_cases t <;> simp [keySwitchingKeyDecl] at h <;> subst h <;> cases v <;> simp [KeySwitchingKeyMsg.merge, Value.Number, Value.Bytes, Value.Numbers, Value.Message, exists_bind]
    · simp [keySwitchingKeyDecl] at h
  other m f hp h := by
    obtain ⟨t, v⟩ := f
    rcases lt_or_eq_add t 7 with ht | ⟨j, rfl⟩
    · interval_cases t <;> simp_all [keySwitchingKeyDecl, KeySwitchingKeyMsg.merge]
    · cases v <;> simp [KeySwitchingKeyMsg.merge]

theorem mergeInto_iff {m : Option KeySwitchingKeyMsg} : (∃ a, KeySwitchingKeyMsg.mergeInto depth m bytes = some a) ↔ Fits keySwitchingKeyDecl depth bytes := reads_ksk.decode

theorem reads_rgsw : Reads rgswDecl RgswCiphertext.mergeMsg where
  declared m f ok h := by
    obtain ⟨t, v⟩ := f
    rcases lt_or_eq_add t 3 with ht | ⟨j, rfl⟩
    · interval_cases t <;> simp [rgswDecl] at h <;> subst h <;> cases v <;> simp [RgswCiphertext.mergeMsg, Value.Number, Value.Bytes, Value.Numbers, Value.Message, exists_bind, mergeInto_iff, Wire.maxDepth]
    · simp [rgswDecl] at h
  other m f hp h := by
    obtain ⟨t, v⟩ := f
    rcases lt_or_eq_add t 3 with ht | ⟨j, rfl⟩
    · interval_cases t <;> simp_all [rgswDecl, RgswCiphertext.mergeMsg]
    · cases v <;> simp [RgswCiphertext.mergeMsg]

theorem reads_relin : Reads relinearizationKeyDecl RelinearizationKey.mergeMsg where
  declared m f ok h := by
    obtain ⟨t, v⟩ := f
    rcases lt_or_eq_add t 2 with ht | ⟨j, rfl⟩
    · interval_cases t <;> simp [relinearizationKeyDecl] at h <;> subst h <;> cases v <;> simp [RelinearizationKey.mergeMsg, Value.Number, Value.Bytes, Value.Numbers, Value.Message, exists_bind, mergeInto_iff, Wire.maxDepth]
    · simp [relinearizationKeyDecl] at h
  other m f hp h := by
    obtain ⟨t, v⟩ := f
    rcases lt_or_eq_add t 2 with ht | ⟨j, rfl⟩
    · interval_cases t <;> simp_all [relinearizationKeyDecl, RelinearizationKey.mergeMsg]
    · cases v <;> simp [RelinearizationKey.mergeMsg]

theorem reads_galois : Reads galoisKeyDecl (GaloisKey.mergeMsg 98) where
  declared m f ok h := by
    obtain ⟨t, v⟩ := f
    rcases lt_or_eq_add t 3 with ht | ⟨j, rfl⟩
    · interval_cases t <;> simp [galoisKeyDecl] at h <;> subst h <;> cases v <;> simp [GaloisKey.mergeMsg, Value.Number, Value.Bytes, Value.Numbers, Value.Message, exists_bind, mergeInto_iff, Wire.maxDepth]
    · simp [galoisKeyDecl] at h
  other m f hp h := by
    obtain ⟨t, v⟩ := f
    rcases lt_or_eq_add t 3 with ht | ⟨j, rfl⟩
    · interval_cases t <;> simp_all [galoisKeyDecl, GaloisKey.mergeMsg]
    · cases v <;> simp [GaloisKey.mergeMsg]

theorem reads_eval : Reads evaluationKeyDecl EvaluationKey.mergeMsg where
  declared m f ok h := by
    obtain ⟨t, v⟩ := f
    rcases lt_or_eq_add t 5 with ht | ⟨j, rfl⟩
    · interval_cases t <;> simp [evaluationKeyDecl] at h <;> subst h <;> cases v <;> simp [EvaluationKey.mergeMsg, Value.Number, Value.Bytes, Value.Numbers, Value.Message, exists_bind, reads_galois.decode, Wire.maxDepth]
    · simp [evaluationKeyDecl] at h
  other m f hp h := by
    obtain ⟨t, v⟩ := f
    rcases lt_or_eq_add t 5 with ht | ⟨j, rfl⟩
    · interval_cases t <;> simp_all [evaluationKeyDecl, EvaluationKey.mergeMsg]
    · cases v <;> simp [EvaluationKey.mergeMsg]

theorem reads_params : Reads parametersDecl ParamsMsg.merge where
  declared m f ok h := by
    obtain ⟨t, v⟩ := f
    rcases lt_or_eq_add t 6 with ht | ⟨j, rfl⟩
    · interval_cases t <;> simp [parametersDecl] at h <;> subst h <;> cases v <;> simp [ParamsMsg.merge, Value.Number, Value.Bytes, Value.Numbers, Value.Message, exists_bind]
    · simp [parametersDecl] at h
  other m f hp h := by
    obtain ⟨t, v⟩ := f
    rcases lt_or_eq_add t 6 with ht | ⟨j, rfl⟩
    · interval_cases t <;> simp_all [parametersDecl, ParamsMsg.merge]
    · cases v <;> simp [ParamsMsg.merge]

theorem reads_public : Reads publicKeyDecl PublicKey.mergeMsg where
  declared m f ok h := by
    obtain ⟨t, v⟩ := f
    rcases lt_or_eq_add t 2 with ht | ⟨j, rfl⟩
    · interval_cases t <;> simp [publicKeyDecl] at h <;> subst h <;> cases v <;> simp [PublicKey.mergeMsg, Value.Number, Value.Bytes, Value.Numbers, Value.Message, exists_bind, reads_ciphertext.decode, Wire.maxDepth]
    · simp [publicKeyDecl] at h
  other m f hp h := by
    obtain ⟨t, v⟩ := f
    rcases lt_or_eq_add t 2 with ht | ⟨j, rfl⟩
    · interval_cases t <;> simp_all [publicKeyDecl, PublicKey.mergeMsg]
    · cases v <;> simp [PublicKey.mergeMsg]

theorem reads_secret : Reads secretKeyDecl SecretKey.mergeMsg where
  declared m f ok h := by
    obtain ⟨t, v⟩ := f
    rcases lt_or_eq_add t 2 with ht | ⟨j, rfl⟩
    · interval_cases t <;> simp [secretKeyDecl] at h <;> subst h <;> cases v <;> simp [SecretKey.mergeMsg, Value.Number, Value.Bytes, Value.Numbers, Value.Message, exists_bind]
    · simp [secretKeyDecl] at h
  other m f hp h := by
    obtain ⟨t, v⟩ := f
    rcases lt_or_eq_add t 2 with ht | ⟨j, rfl⟩
    · interval_cases t <;> simp_all [secretKeyDecl, SecretKey.mergeMsg]
    · cases v <;> simp [SecretKey.mergeMsg]

end Fhe.Wire
