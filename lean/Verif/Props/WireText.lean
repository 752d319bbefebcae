import Verif.Lemmas.WireText
import Verif.Props.WireFormat
/-!
# C62: the reader and the grammar of the encoding
-/
namespace Fhe.Props
open Wire

/-- C62: bytes are read as the fields they stand for, and they are read as nothing else; the same for the numbers of a packed field. -/
theorem C62_grammar {bytes : List Nat} (hb : IsBytes bytes) :
    (∀ d fs, readFields bytes.length (d + 1) bytes = some fs ↔ IsFields (d + 1) bytes fs) ∧
    ∀ l, readPacked bytes.length bytes = some l ↔ ∃ chunks, bytes = chunks.flatten ∧ List.Forall₂ IsNumber chunks l :=
  ⟨fun _ _ => readFields_iff hb, fun l => readPacked_iff _ _ l le_rfl hb⟩

/-- C62: bytes which do not stand for any fields are not read: a truncated field, a group that is not closed or closed with another number,
a number of more than 64 bits, a field numbered zero, groups nested 100 deep. -/
theorem C62_grammar_error (b : Build) (g : Prg) (par : Par) {bytes : List Nat} (hb : IsBytes bytes) (h : ∀ fs, ¬ IsFields 100 bytes fs) :
    Ciphertext.fromBytes g bytes par = Res.err .decode ∧ SecretKey.fromBytes bytes par = Res.err .decode ∧ PublicKey.fromBytes g bytes par = Res.err .decode ∧
    RelinearizationKey.fromBytes g bytes par = Res.err .decode ∧ EvaluationKey.fromBytes b g bytes par = Res.err .decode ∧ RgswCiphertext.fromBytes g bytes par = Res.err .decode ∧
    BfvParameters.fromBytes b bytes = Res.err .decode := by
  have hn : ∀ d, ¬ Fits d 100 bytes := fun d ⟨fs, h1, _⟩ => h fs ((readFields_iff hb).1 h1)
  obtain ⟨h1, h2, h3, h4, h5, h6, h7, -⟩ := C62_format_error b g par bytes
  exact ⟨h1 (hn _), h2 (hn _), h3 (hn _), h4 (hn _), h5 (hn _), h6 (hn _), h7 (hn _)⟩

/-- C62: bytes that stand for the same declared fields, in the same order, are read the same, whatever other fields they stand for, and
whichever way their numbers are written. -/
theorem C62_grammar_same (b : Build) (g : Prg) (par : Par) {bytes bytes' : List Nat} {fs fs' : List Field} (h : IsFields 100 bytes fs) (h' : IsFields 100 bytes' fs') :
    (fs.filter (fun f => f.1 ≤ 6) = fs'.filter (fun f => f.1 ≤ 6)) →
    Ciphertext.fromBytes g bytes par = Ciphertext.fromBytes g bytes' par ∧ SecretKey.fromBytes bytes par = SecretKey.fromBytes bytes' par ∧
    PublicKey.fromBytes g bytes par = PublicKey.fromBytes g bytes' par ∧ RelinearizationKey.fromBytes g bytes par = RelinearizationKey.fromBytes g bytes' par ∧
    EvaluationKey.fromBytes b g bytes par = EvaluationKey.fromBytes b g bytes' par ∧ RgswCiphertext.fromBytes g bytes par = RgswCiphertext.fromBytes g bytes' par ∧
    BfvParameters.fromBytes b bytes = BfvParameters.fromBytes b bytes' := by
  intro he
  have hs : ∀ d : Decl, (∀ n, (d n).isSome → n ≤ 6) → SameFields d 100 bytes bytes' := by
    intro d hd
    refine ⟨fs, fs', h.read _ le_rfl, h'.read _ le_rfl, ?_⟩
    have key : ∀ l : List Field, l.filter (fun f => (d f.1).isSome) = (l.filter (fun f => f.1 ≤ 6)).filter (fun f => (d f.1).isSome) := by
      intro l
      rw [List.filter_filter]
      refine List.filter_congr fun f _ => ?_
      by_cases hf : (d f.1).isSome
      · simp [hf, hd _ hf]
      · simp [hf]
    rw [key fs, key fs', he]
  obtain ⟨h1, h2, h3, h4, h5, h6, h7, -⟩ := C62_same_fields b g par bytes bytes'
  refine ⟨h1 (hs _ ?_), h2 (hs _ ?_), h3 (hs _ ?_), h4 (hs _ ?_), h5 (hs _ ?_), h6 (hs _ ?_), h7 (hs _ ?_)⟩ <;> intro n hn <;> by_contra hc <;>
    obtain ⟨k, rfl⟩ := Nat.exists_eq_add_of_le' (show 7 ≤ n by omega) <;> revert hn <;>
    simp [ciphertextDecl, secretKeyDecl, publicKeyDecl, relinearizationKeyDecl, evaluationKeyDecl, rgswDecl, parametersDecl]

/-- A group numbered 9 that holds a number and an empty group numbered 1, before the level of a ciphertext, which is written in two bytes. -/
example (g : Prg) (par : Par) : Ciphertext.fromBytes g [75, 8, 200, 1, 11, 12, 76, 24, 129, 0] par = Ciphertext.fromBytes g [24, 1] par := by
  have hk : ∀ n t w, n < 128 → n = t * 8 + w → 1 ≤ t → t < 2 ^ 29 → IsKey [n] t w := fun n t w h1 h2 h3 h4 => ⟨⟨[], n, rfl, by simp, h1, by simp, by simp; omega, by omega⟩, h3, h4⟩
  have h1 : IsFields 99 [8, 200, 1, 11, 12] [(1, .varint 200), (1, .group)] :=
    .number (k := [8]) (v := [200, 1]) (hk 8 1 0 (by decide) (by decide) (by decide) (by decide)) ⟨[200], 1, rfl, by simp, by decide, by simp, by decide, by decide⟩
      (.group (k := [11]) (c := []) (e := [12]) (r := []) (hk 11 1 3 (by decide) (by decide) (by decide) (by decide)) (.nil 98) (hk 12 1 4 (by decide) (by decide) (by decide) (by decide)) (.nil _))
  have h2 : IsFields 100 [24, 129, 0] [(3, .varint 1)] :=
    .number (k := [24]) (v := [129, 0]) (r := []) (hk 24 3 0 (by decide) (by decide) (by decide) (by decide)) ⟨[129], 0, rfl, by simp, by decide, by simp, by decide, by decide⟩ (.nil _)
  have h3 : IsFields 100 [24, 1] [(3, .varint 1)] :=
    .number (k := [24]) (v := [1]) (r := []) (hk 24 3 0 (by decide) (by decide) (by decide) (by decide)) ⟨[], 1, rfl, by simp, by decide, by simp, by decide, by decide⟩ (.nil _)
  have h4 : IsFields 100 [75, 8, 200, 1, 11, 12, 76, 24, 129, 0] [(9, .group), (3, .varint 1)] :=
    .group (k := [75]) (c := [8, 200, 1, 11, 12]) (e := [76]) (hk 75 9 3 (by decide) (by decide) (by decide) (by decide)) h1 (hk 76 9 4 (by decide) (by decide) (by decide) (by decide)) h2
  exact (C62_grammar_same ⟨true, true, fun _ _ => 0⟩ g par h4 h3 (by decide)).1

/-- A group that is closed with another number. -/
example (g : Prg) (par : Par) : Ciphertext.fromBytes g [75, 68] par = Res.err .decode := by
  have hb : IsBytes [75, 68] := by intro x hx; simp at hx; omega
  refine (C62_grammar_error ⟨true, true, fun _ _ => 0⟩ g par hb fun fs hf => ?_).1
  have := ((C62_grammar hb).1 99 fs).2 hf
  rw [show readFields [75, 68].length (99 + 1) [75, 68] = none by decide +kernel] at this
  cases this

end Fhe.Props
