import Verif.Lemmas.WireFormat
/-!
# Property C62: the message formats
-/
namespace Fhe.Props
open Wire

variable {b : Build} {g : Prg} {par : Par} {bytes bytes' : List Nat}

/-- C62: bytes in which a declared field has a value of another kind, or which are no list of fields, are rejected as such. -/
theorem C62_format_error (b : Build) (g : Prg) (par : Par) (bytes : List Nat) :
    (¬ Fits ciphertextDecl 100 bytes → Ciphertext.fromBytes g bytes par = Res.err .decode) ∧
    (¬ Fits secretKeyDecl 100 bytes → SecretKey.fromBytes bytes par = Res.err .decode) ∧
    (¬ Fits publicKeyDecl 100 bytes → PublicKey.fromBytes g bytes par = Res.err .decode) ∧
    (¬ Fits relinearizationKeyDecl 100 bytes → RelinearizationKey.fromBytes g bytes par = Res.err .decode) ∧
    (¬ Fits evaluationKeyDecl 100 bytes → EvaluationKey.fromBytes b g bytes par = Res.err .decode) ∧
    (¬ Fits rgswDecl 100 bytes → RgswCiphertext.fromBytes g bytes par = Res.err .decode) ∧
    (¬ Fits parametersDecl 100 bytes → BfvParameters.fromBytes b bytes = Res.err .decode) ∧
    ∀ r ctx, ¬ Fits rqDecl 100 bytes → Poly.fromBytes r bytes ctx = some (.error (.serialization 0)) := by
  refine ⟨fun h => ?_, fun h => ?_, fun h => ?_, fun h => ?_, fun h => ?_, fun h => ?_, fun h => ?_, fun r ctx h => ?_⟩
  · unfold Ciphertext.fromBytes CiphertextMsg.decode maxDepth; rw [reads_ciphertext.decode_none h]
  · unfold SecretKey.fromBytes SecretKey.decodeMsg maxDepth; rw [reads_secret.decode_none h]
  · unfold PublicKey.fromBytes maxDepth; rw [reads_public.decode_none h]
  · unfold RelinearizationKey.fromBytes maxDepth; rw [reads_relin.decode_none h]
  · unfold EvaluationKey.fromBytes maxDepth; rw [reads_eval.decode_none h]
  · unfold RgswCiphertext.fromBytes maxDepth; rw [reads_rgsw.decode_none h]
  · unfold BfvParameters.fromBytes maxDepth; rw [reads_params.decode_none h]
  · unfold Poly.fromBytes RqMsg.decode maxDepth; rw [reads_rq.decode_none h]

/-- C62: and bytes that fit the format are read as some message. -/
theorem C62_format_ok (b : Build) (g : Prg) (par : Par) (bytes : List Nat) :
    (Fits ciphertextDecl 100 bytes → ∃ m, Ciphertext.fromBytes g bytes par = Ciphertext.fromMsg g m par) ∧
    (Fits secretKeyDecl 100 bytes → ∃ m, SecretKey.fromBytes bytes par = SecretKey.fromMsg m par) ∧
    (Fits publicKeyDecl 100 bytes → ∃ m, PublicKey.fromBytes g bytes par = PublicKey.fromMsg g m par) ∧
    (Fits relinearizationKeyDecl 100 bytes → ∃ m, RelinearizationKey.fromBytes g bytes par = RelinearizationKey.fromMsg g m par) ∧
    (Fits evaluationKeyDecl 100 bytes → ∃ m, EvaluationKey.fromBytes b g bytes par = EvaluationKey.fromMsg b g m par) ∧
    (Fits rgswDecl 100 bytes → ∃ m, RgswCiphertext.fromBytes g bytes par = RgswCiphertext.fromMsg g m par) ∧
    (Fits parametersDecl 100 bytes → ∃ m, BfvParameters.fromBytes b bytes = BfvParameters.fromMsg b m) ∧
    ∀ r ctx, Fits rqDecl 100 bytes → ∃ m, Poly.fromBytes r bytes ctx = Poly.fromRq r m ctx false := by
  refine ⟨fun h => ?_, fun h => ?_, fun h => ?_, fun h => ?_, fun h => ?_, fun h => ?_, fun h => ?_, fun r ctx h => ?_⟩
  · obtain ⟨m, hm⟩ := (reads_ciphertext.decode (init := CiphertextMsg.empty)).2 h
    exact ⟨m, by unfold Ciphertext.fromBytes CiphertextMsg.decode maxDepth; rw [hm]⟩
  · obtain ⟨m, hm⟩ := (reads_secret.decode (init := [])).2 h
    exact ⟨m, by unfold SecretKey.fromBytes SecretKey.decodeMsg maxDepth; rw [hm]⟩
  · obtain ⟨m, hm⟩ := (reads_public.decode (init := none)).2 h
    exact ⟨m, by unfold PublicKey.fromBytes maxDepth; rw [hm]⟩
  · obtain ⟨m, hm⟩ := (reads_relin.decode (init := none)).2 h
    exact ⟨m, by unfold RelinearizationKey.fromBytes maxDepth; rw [hm]⟩
  · obtain ⟨m, hm⟩ := (reads_eval.decode (init := ⟨[], 0, 0⟩)).2 h
    exact ⟨m, by unfold EvaluationKey.fromBytes maxDepth; rw [hm]⟩
  · obtain ⟨m, hm⟩ := (reads_rgsw.decode (init := ⟨none, none⟩)).2 h
    exact ⟨m, by unfold RgswCiphertext.fromBytes maxDepth; rw [hm]⟩
  · obtain ⟨m, hm⟩ := (reads_params.decode (init := ⟨0, [], none, 0⟩)).2 h
    exact ⟨m, by unfold BfvParameters.fromBytes maxDepth; rw [hm]⟩
  · obtain ⟨m, hm⟩ := (reads_rq.decode (init := ⟨0, 0, [], false⟩)).2 h
    exact ⟨m, by unfold Poly.fromBytes RqMsg.decode maxDepth; rw [hm]⟩

/-- C62: fields that are not declared make no difference, wherever they stand and whatever is in them. -/
theorem C62_same_fields (b : Build) (g : Prg) (par : Par) (bytes bytes' : List Nat) :
    (SameFields ciphertextDecl 100 bytes bytes' → Ciphertext.fromBytes g bytes par = Ciphertext.fromBytes g bytes' par) ∧
    (SameFields secretKeyDecl 100 bytes bytes' → SecretKey.fromBytes bytes par = SecretKey.fromBytes bytes' par) ∧
    (SameFields publicKeyDecl 100 bytes bytes' → PublicKey.fromBytes g bytes par = PublicKey.fromBytes g bytes' par) ∧
    (SameFields relinearizationKeyDecl 100 bytes bytes' → RelinearizationKey.fromBytes g bytes par = RelinearizationKey.fromBytes g bytes' par) ∧
    (SameFields evaluationKeyDecl 100 bytes bytes' → EvaluationKey.fromBytes b g bytes par = EvaluationKey.fromBytes b g bytes' par) ∧
    (SameFields rgswDecl 100 bytes bytes' → RgswCiphertext.fromBytes g bytes par = RgswCiphertext.fromBytes g bytes' par) ∧
    (SameFields parametersDecl 100 bytes bytes' → BfvParameters.fromBytes b bytes = BfvParameters.fromBytes b bytes') ∧
    ∀ r ctx, SameFields rqDecl 100 bytes bytes' → Poly.fromBytes r bytes ctx = Poly.fromBytes r bytes' ctx := by
  refine ⟨fun h => ?_, fun h => ?_, fun h => ?_, fun h => ?_, fun h => ?_, fun h => ?_, fun h => ?_, fun r ctx h => ?_⟩
  · unfold Ciphertext.fromBytes CiphertextMsg.decode maxDepth; rw [reads_ciphertext.same h]
  · unfold SecretKey.fromBytes SecretKey.decodeMsg maxDepth; rw [reads_secret.same h]
  · unfold PublicKey.fromBytes maxDepth; rw [reads_public.same h]
  · unfold RelinearizationKey.fromBytes maxDepth; rw [reads_relin.same h]
  · unfold EvaluationKey.fromBytes maxDepth; rw [reads_eval.same h]
  · unfold RgswCiphertext.fromBytes maxDepth; rw [reads_rgsw.same h]
  · unfold BfvParameters.fromBytes maxDepth; rw [reads_params.same h]
  · unfold Poly.fromBytes RqMsg.decode maxDepth; rw [reads_rq.same h]

/-- Bytes for the level of a ciphertext instead of a number; a field of 32 bits, numbered 9, before the level. -/
example (g : Prg) (par : Par) : Ciphertext.fromBytes g [26, 1, 5] par = Res.err .decode ∧ Ciphertext.fromBytes g [77, 1, 2, 3, 4, 24, 1] par = Ciphertext.fromBytes g [24, 1] par := by
  refine ⟨(C62_format_error ⟨true, true, fun _ _ => 0⟩ g par _).1 ?_, (C62_same_fields ⟨true, true, fun _ _ => 0⟩ g par _ _).1 ⟨[(9, .fixed32), (3, .varint 1)], [(3, .varint 1)], by decide +kernel, by decide +kernel, by decide +kernel⟩⟩
  rintro ⟨fs, h1, h2⟩
  rw [show readFields [26, 1, 5].length 100 [26, 1, 5] = some [(3, .len [5])] by decide +kernel] at h1
  cases h1
  obtain ⟨n, hn⟩ := h2 (3, .len [5]) (by simp) Value.Number rfl
  cases hn

end Fhe.Props
