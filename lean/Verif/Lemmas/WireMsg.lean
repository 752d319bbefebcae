import Verif.Lemmas.Wire
import Verif.Model.BfvEval
import Verif.Model.BfvRgsw
/-! # Encoding and decoding of the messages -/
namespace Fhe
open Wire

namespace Wire

theorem mem_scalar {t n : Nat} {f : Field} (h : f ∈ scalar t n) : f = (t, .varint n) := by
  unfold scalar at h; split at h <;> simp at h; exact h

theorem mem_bytesField {t : Nat} {p : List Nat} {f : Field} (h : f ∈ bytesField t p) : f = (t, .len p) := by
  unfold bytesField at h; split at h <;> simp at h; exact h

theorem mem_packed {t : Nat} {l : List Nat} {f : Field} (h : f ∈ packed t l) : f = (t, .len (l.flatMap varint)) := by
  unfold packed at h; split at h <;> simp at h; exact h

theorem length_scalar (t n : Nat) : (scalar t n).length ≤ 1 := by unfold scalar; split <;> simp
theorem length_bytesField (t : Nat) (p : List Nat) : (bytesField t p).length ≤ 1 := by unfold bytesField; split <;> simp

theorem length_varints : ∀ {l : List Nat}, (∀ n ∈ l, n < 2 ^ 64) → (l.flatMap varint).length ≤ l.length * 10
  | [], _ => by simp
  | n :: l, h => by
    have h1 := length_varint_le (h n (by simp))
    have h2 := length_varints (l := l) fun m hm => h m (by simp [hm])
    rw [List.flatMap_cons, List.length_append, List.length_cons]; omega

theorem ok_varint {t n : Nat} (h1 : 1 ≤ t) (h2 : t < 2 ^ 29) (h : n < 2 ^ 64) : Field.OK (t, .varint n) := ⟨h1, h2, h⟩
theorem ok_len {t : Nat} {p : List Nat} (h1 : 1 ≤ t) (h2 : t < 2 ^ 29) (h : p.length < 2 ^ 64) : Field.OK (t, .len p) := ⟨h1, h2, h⟩

theorem asU32_of_lt {n : Nat} (h : n < 2 ^ 32) : asU32 n = n := Nat.mod_eq_of_lt h

/-- Reading back a number. -/
theorem fold_scalar {M : Type} {merge : M → Field → Option M} {m m' : M} {t n : Nat} (h0 : n = 0 → m = m') (h : merge m (t, .varint n) = some m') : (scalar t n).foldlM merge m = some m' := by
  unfold scalar
  split
  · rename_i h1; rw [h0 h1]; rfl
  · rw [List.foldlM_cons, h]; rfl

/-- Reading back bytes. -/
theorem fold_bytes {M : Type} {merge : M → Field → Option M} {m m' : M} {t : Nat} {p : List Nat} (h0 : p = [] → m = m') (h : merge m (t, .len p) = some m') : (bytesField t p).foldlM merge m = some m' := by
  unfold bytesField
  split
  · rename_i h1; rw [h0 h1]; rfl
  · rw [List.foldlM_cons, h]; rfl

/-- Reading back a list. -/
theorem fold_list {M α : Type} {merge : M → Field → Option M} (set : List α → M) (f : α → Field) (h : ∀ l x, merge (set l) (f x) = some (set (l ++ [x]))) :
    ∀ l acc : List α, (l.map f).foldlM merge (set acc) = some (set (acc ++ l))
  | [], acc => by rw [List.append_nil]; rfl
  | x :: l, acc => by
    rw [List.map_cons, List.foldlM_cons, h, Option.bind_eq_bind, Option.bind_some, fold_list set f h l, List.append_assoc]; rfl

end Wire

/-! ## Ciphertexts -/

/-- A message whose fields can be encoded. -/
structure CiphertextMsg.Fits (B : Nat) (m : CiphertextMsg) : Prop where
  parts : ∀ x ∈ m.c, x.length ≤ B
  seed : m.seed.length ≤ 32
  level : m.level < 2 ^ 32

namespace CiphertextMsg

theorem Fits.ok {B : Nat} {m : CiphertextMsg} (h : m.Fits B) (hB : B < 2 ^ 64) : ∀ f ∈ m.toFields, Field.OK f := by
  intro f hf
  simp only [toFields, List.mem_append] at hf
  rcases hf with (hf | hf) | hf
  · obtain ⟨x, hx, rfl⟩ := List.mem_map.1 hf
    exact ok_len (by decide) (by decide) (lt_of_le_of_lt (h.parts x hx) hB)
  · rw [mem_bytesField hf]; exact ok_len (by decide) (by decide) (lt_of_le_of_lt h.seed (by decide))
  · rw [mem_scalar hf]; exact ok_varint (by decide) (by decide) (by have := h.level; omega)

theorem codec {B : Nat} {m : CiphertextMsg} (h : m.Fits B) (hB : B < 2 ^ 64) (depth : Nat) : Wire.decode merge empty depth m.encode = some m := by
  refine decode_encode depth (h.ok hB) ?_
  simp only [toFields, List.foldlM_append, Option.bind_eq_bind]
  have e1 : (repeatedBytes 1 m.c).foldlM merge empty = some ⟨m.c, [], 0⟩ := fold_list (fun l => (⟨l, [], 0⟩ : CiphertextMsg)) _ (fun l x => rfl) m.c []
  have e2 : (bytesField 2 m.seed).foldlM merge ⟨m.c, [], 0⟩ = some ⟨m.c, m.seed, 0⟩ := fold_bytes (fun h => by rw [h]) rfl
  have e3 : (scalar 3 m.level).foldlM merge ⟨m.c, m.seed, 0⟩ = some m := fold_scalar (fun h => by rw [← h]) (by rw [merge, asU32_of_lt h.level])
  rw [e1, Option.bind_some, e2, Option.bind_some, e3]

theorem length_encode {B : Nat} {m : CiphertextMsg} (h : m.Fits B) (hB : B < 2 ^ 64) (hB' : 32 ≤ B) : m.encode.length ≤ (m.c.length + 2) * (B + 20) := by
  refine (length_encode_le (h.ok hB) ?_).trans (Nat.mul_le_mul_right _ ?_)
  · intro f hf p hp
    simp only [toFields, List.mem_append] at hf
    rcases hf with (hf | hf) | hf
    · obtain ⟨x, hx, rfl⟩ := List.mem_map.1 hf
      cases hp; exact h.parts _ hx
    · rw [mem_bytesField hf] at hp; cases hp; exact h.seed.trans hB'
    · rw [mem_scalar hf] at hp; cases hp
  · have h1 := length_scalar 3 m.level
    have h2 := length_bytesField 2 m.seed
    simp only [toFields, List.length_append, repeatedBytes, List.length_map]; omega

theorem isBytes_encode {m : CiphertextMsg} (h1 : ∀ x ∈ m.c, IsBytes x) (h2 : IsBytes m.seed) : IsBytes m.encode := by
  refine Wire.isBytes_encode fun f hf p hp => ?_
  simp only [toFields, List.mem_append] at hf
  rcases hf with (hf | hf) | hf
  · obtain ⟨x, hx, rfl⟩ := List.mem_map.1 hf
    cases hp; exact h1 _ hx
  · rw [mem_bytesField hf] at hp; cases hp; exact h2
  · rw [mem_scalar hf] at hp; cases hp

theorem merge_parts {m m' : CiphertextMsg} {f : Field} (h : merge m f = some m') (hm : ∀ x ∈ m.c, IsBytes x) (hf : ∀ p, f.2 = .len p → IsBytes p) : ∀ x ∈ m'.c, IsBytes x := by
  unfold merge at h
  split at h
  · cases h
    intro x hx
    rcases List.mem_append.1 hx with hx | hx
    · exact hm x hx
    · rw [List.mem_singleton.1 hx]; exact hf _ rfl
  · cases h; exact hm
  · cases h; exact hm
  · split at h <;> cases h
    exact hm

theorem decode_spec {m init : CiphertextMsg} {depth : Nat} {bytes : List Nat} (h : Wire.decode merge init depth bytes = some m) (hb : IsBytes bytes) (hi : ∀ x ∈ init.c, IsBytes x) : ∀ x ∈ m.c, IsBytes x :=
  decode_ind (P := fun m : CiphertextMsg => ∀ x ∈ m.c, IsBytes x) h hb hi fun _ _ _ hm hp _ h2 => merge_parts hm hp h2

end CiphertextMsg

/-! ## Keys -/

theorem PublicKey.codec {B : Nat} {m : CiphertextMsg} (h : m.Fits B) (hB : B < 2 ^ 64) (hl : m.encode.length < 2 ^ 64) :
    Wire.decode PublicKey.mergeMsg none maxDepth (Wire.encode (PublicKey.toFields (some m))) = some (some m) := by
  refine decode_encode _ ?_ ?_
  · intro f hf
    simp only [PublicKey.toFields, Option.toList_some, List.map_singleton, List.mem_singleton] at hf
    subst hf
    exact ok_len (by decide) (by decide) hl
  · show (do let x ← (do return some (← Wire.decode CiphertextMsg.merge .empty (maxDepth - 1) m.encode)); some x) = _
    rw [CiphertextMsg.codec h hB]; rfl

theorem PublicKey.decode_spec {m : Option CiphertextMsg} {bytes : List Nat} (h : Wire.decode PublicKey.mergeMsg none maxDepth bytes = some m) (hb : IsBytes bytes) :
    ∀ x, m = some x → ∀ y ∈ x.c, IsBytes y := by
  refine decode_ind (P := fun m : Option CiphertextMsg => ∀ x, m = some x → ∀ y ∈ x.c, IsBytes y) h hb (by simp) fun m f m' hm hp _ h2 => ?_
  unfold mergeMsg at hm
  split at hm
  · simp only [Option.bind_eq_bind, Option.bind_eq_some_iff, Option.pure_def, Option.some.injEq] at hm
    obtain ⟨x, h3, rfl⟩ := hm
    intro y hy
    cases hy
    refine CiphertextMsg.decode_spec h3 (h2 _ rfl) ?_
    cases m with
    | none => simp [CiphertextMsg.empty]
    | some z => exact hp z rfl
  · split at hm <;> cases hm
    exact hp

theorem SecretKey.codec {m : List Int} (h : ∀ x ∈ m, -2 ^ 63 ≤ x ∧ x < 2 ^ 63) (hl : m.length ≤ 2 ^ 32) : SecretKey.decodeMsg (SecretKey.encodeMsg m) = some m := by
  unfold SecretKey.decodeMsg SecretKey.encodeMsg
  refine decode_encode _ ?_ ?_
  · intro f hf
    rw [mem_packed hf]
    refine ok_len (by decide) (by decide) (lt_of_le_of_lt (length_varints ?_) (by rw [List.length_map]; omega))
    intro n hn
    obtain ⟨x, hx, rfl⟩ := List.mem_map.1 hn
    exact zigzag_lt (h x hx).1 (h x hx).2
  · unfold packed
    split
    · rename_i h0; rw [List.map_eq_nil_iff.1 h0]; rfl
    · have e : readPacked ((m.map zigzag).flatMap varint).length ((m.map zigzag).flatMap varint) = some (m.map zigzag) := by
        refine readPacked_varints _ _ ?_ le_rfl
        intro n hn
        obtain ⟨x, hx, rfl⟩ := List.mem_map.1 hn
        exact zigzag_lt (h x hx).1 (h x hx).2
      rw [List.foldlM_cons, mergeMsg, e]
      simp only [Option.bind_eq_bind, Option.bind_some, List.nil_append, List.map_map, Option.pure_def, List.foldlM_nil]
      rw [show unzigzag ∘ zigzag = id from funext unzigzag_zigzag, List.map_id]

theorem SecretKey.decode_spec {m : List Int} {bytes : List Nat} (h : SecretKey.decodeMsg bytes = some m) (hb : IsBytes bytes) : ∀ x ∈ m, -2 ^ 63 ≤ x ∧ x < 2 ^ 63 := by
  refine decode_ind (P := fun m : List Int => ∀ x ∈ m, -2 ^ 63 ≤ x ∧ x < 2 ^ 63) h hb (by simp) fun m f m' hm hp h1 h2 => ?_
  unfold mergeMsg at hm
  split at hm
  · simp only [Option.bind_eq_bind, Option.bind_eq_some_iff, Option.pure_def, Option.some.injEq] at hm
    obtain ⟨l, h3, rfl⟩ := hm
    intro x hx
    rcases List.mem_append.1 hx with hx | hx
    · exact hp x hx
    · obtain ⟨n, hn, rfl⟩ := List.mem_map.1 hx
      exact unzigzag_range (readPacked_spec _ _ _ h3 (h2 _ rfl) n hn)
  · cases hm
    intro x hx
    rcases List.mem_append.1 hx with hx | hx
    · exact hp x hx
    · rw [List.mem_singleton.1 hx]; exact unzigzag_range (h1 _ rfl)
  · split at hm <;> cases hm
    exact hp

theorem SecretKey.isBytes (sk : SecretKey) : IsBytes sk.toBytes := by
  refine Wire.isBytes_encode fun f hf p hp => ?_
  rw [mem_packed hf] at hp
  cases hp
  exact isBytes_varints _

/-- A message whose fields can be encoded. -/
structure KeySwitchingKeyMsg.Fits (B : Nat) (m : KeySwitchingKeyMsg) : Prop where
  parts : ∀ x ∈ m.c0 ++ m.c1, x.length ≤ B
  seed : m.seed.length ≤ 32
  ciphertextLevel : m.ciphertextLevel < 2 ^ 32
  kskLevel : m.kskLevel < 2 ^ 32
  logBase : m.logBase < 2 ^ 32

namespace KeySwitchingKeyMsg

theorem Fits.ok {B : Nat} {m : KeySwitchingKeyMsg} (h : m.Fits B) (hB : B < 2 ^ 64) : ∀ f ∈ m.toFields, Field.OK f := by
  intro f hf
  simp only [toFields, List.mem_append] at hf
  rcases hf with ((((hf | hf) | hf) | hf) | hf) | hf
  · obtain ⟨x, hx, rfl⟩ := List.mem_map.1 hf
    exact ok_len (by decide) (by decide) (lt_of_le_of_lt (h.parts x (by simp [hx])) hB)
  · obtain ⟨x, hx, rfl⟩ := List.mem_map.1 hf
    exact ok_len (by decide) (by decide) (lt_of_le_of_lt (h.parts x (by simp [hx])) hB)
  · rw [mem_bytesField hf]; exact ok_len (by decide) (by decide) (lt_of_le_of_lt h.seed (by decide))
  · rw [mem_scalar hf]; exact ok_varint (by decide) (by decide) (by have := h.ciphertextLevel; omega)
  · rw [mem_scalar hf]; exact ok_varint (by decide) (by decide) (by have := h.kskLevel; omega)
  · rw [mem_scalar hf]; exact ok_varint (by decide) (by decide) (by have := h.logBase; omega)

theorem codec {B : Nat} {m : KeySwitchingKeyMsg} (h : m.Fits B) (hB : B < 2 ^ 64) (depth : Nat) : mergeInto depth none m.encode = some m := by
  refine decode_encode depth ?_ ?_
  · exact h.ok hB
  · simp only [toFields, List.foldlM_append, Option.bind_eq_bind, Option.getD_none]
    have e1 : (repeatedBytes 1 m.c0).foldlM merge empty = some ⟨m.c0, [], [], 0, 0, 0⟩ := fold_list (fun l => (⟨l, [], [], 0, 0, 0⟩ : KeySwitchingKeyMsg)) _ (fun l x => rfl) m.c0 []
    have e2 : (repeatedBytes 2 m.c1).foldlM merge ⟨m.c0, [], [], 0, 0, 0⟩ = some ⟨m.c0, m.c1, [], 0, 0, 0⟩ := fold_list (fun l => (⟨m.c0, l, [], 0, 0, 0⟩ : KeySwitchingKeyMsg)) _ (fun l x => rfl) m.c1 []
    have e3 : (bytesField 3 m.seed).foldlM merge ⟨m.c0, m.c1, [], 0, 0, 0⟩ = some ⟨m.c0, m.c1, m.seed, 0, 0, 0⟩ := fold_bytes (fun h => by rw [h]) rfl
    have e4 : (scalar 4 m.ciphertextLevel).foldlM merge ⟨m.c0, m.c1, m.seed, 0, 0, 0⟩ = some ⟨m.c0, m.c1, m.seed, m.ciphertextLevel, 0, 0⟩ := fold_scalar (fun h => by rw [h]) (by rw [merge, asU32_of_lt h.ciphertextLevel])
    have e5 : (scalar 5 m.kskLevel).foldlM merge ⟨m.c0, m.c1, m.seed, m.ciphertextLevel, 0, 0⟩ = some ⟨m.c0, m.c1, m.seed, m.ciphertextLevel, m.kskLevel, 0⟩ := fold_scalar (fun h => by rw [h]) (by rw [merge, asU32_of_lt h.kskLevel])
    have e6 : (scalar 6 m.logBase).foldlM merge ⟨m.c0, m.c1, m.seed, m.ciphertextLevel, m.kskLevel, 0⟩ = some m := fold_scalar (fun h => by rw [← h]) (by rw [merge, asU32_of_lt h.logBase])
    rw [e1, Option.bind_some, e2, Option.bind_some, e3, Option.bind_some, e4, Option.bind_some, e5, Option.bind_some, e6]

theorem length_encode {B : Nat} {m : KeySwitchingKeyMsg} (h : m.Fits B) (hB : B < 2 ^ 64) (hB' : 32 ≤ B) : m.encode.length ≤ (m.c0.length + m.c1.length + 4) * (B + 20) := by
  refine (length_encode_le (h.ok hB) ?_).trans (Nat.mul_le_mul_right _ ?_)
  · intro f hf p hp
    simp only [toFields, List.mem_append] at hf
    rcases hf with ((((hf | hf) | hf) | hf) | hf) | hf
    · obtain ⟨x, hx, rfl⟩ := List.mem_map.1 hf
      cases hp; exact h.parts _ (by simp [hx])
    · obtain ⟨x, hx, rfl⟩ := List.mem_map.1 hf
      cases hp; exact h.parts _ (by simp [hx])
    · rw [mem_bytesField hf] at hp; cases hp; exact h.seed.trans hB'
    · rw [mem_scalar hf] at hp; cases hp
    · rw [mem_scalar hf] at hp; cases hp
    · rw [mem_scalar hf] at hp; cases hp
  · have h1 := length_scalar 4 m.ciphertextLevel
    have h2 := length_scalar 5 m.kskLevel
    have h3 := length_scalar 6 m.logBase
    have h4 := length_bytesField 3 m.seed
    simp only [toFields, List.length_append, repeatedBytes, List.length_map]; omega

theorem isBytes_encode {m : KeySwitchingKeyMsg} (h1 : ∀ x ∈ m.c0 ++ m.c1, IsBytes x) (h2 : IsBytes m.seed) : IsBytes m.encode := by
  refine Wire.isBytes_encode fun f hf p hp => ?_
  simp only [toFields, List.mem_append] at hf
  rcases hf with ((((hf | hf) | hf) | hf) | hf) | hf
  · obtain ⟨x, hx, rfl⟩ := List.mem_map.1 hf
    cases hp; exact h1 _ (by simp [hx])
  · obtain ⟨x, hx, rfl⟩ := List.mem_map.1 hf
    cases hp; exact h1 _ (by simp [hx])
  · rw [mem_bytesField hf] at hp; cases hp; exact h2
  · rw [mem_scalar hf] at hp; cases hp
  · rw [mem_scalar hf] at hp; cases hp
  · rw [mem_scalar hf] at hp; cases hp

/-- The fields of a decoded message are of their types. -/
def Typed (m : KeySwitchingKeyMsg) : Prop := (∀ x ∈ m.c0 ++ m.c1, IsBytes x) ∧ m.logBase < 2 ^ 32

theorem mergeInto_spec {m : Option KeySwitchingKeyMsg} {m' : KeySwitchingKeyMsg} {depth : Nat} {bytes : List Nat} (h : mergeInto depth m bytes = some m') (hb : IsBytes bytes) (hi : ∀ x, m = some x → x.Typed) : m'.Typed := by
  refine decode_ind (P := Typed) h hb ?_ fun m f m' hm hp _ h2 => ?_
  · cases m with
    | none => exact ⟨by simp [empty], by decide⟩
    | some x => exact hi x rfl
  · unfold merge at hm
    split at hm
    · cases hm
      refine ⟨fun x hx => ?_, hp.2⟩
      simp only [List.mem_append, List.mem_singleton] at hx
      rcases hx with (hx | rfl) | hx
      · exact hp.1 x (by simp [hx])
      · exact h2 _ rfl
      · exact hp.1 x (by simp [hx])
    · cases hm
      refine ⟨fun x hx => ?_, hp.2⟩
      simp only [List.mem_append, List.mem_singleton] at hx
      rcases hx with hx | hx | rfl
      · exact hp.1 x (by simp [hx])
      · exact hp.1 x (by simp [hx])
      · exact h2 _ rfl
    · cases hm; exact hp
    · cases hm; exact hp
    · cases hm; exact hp
    · cases hm; exact ⟨hp.1, Nat.mod_lt _ (by decide)⟩
    · split at hm <;> cases hm
      exact hp

end KeySwitchingKeyMsg

theorem RelinearizationKey.codec {B : Nat} {m : KeySwitchingKeyMsg} (h : m.Fits B) (hB : B < 2 ^ 64) (hl : m.encode.length < 2 ^ 64) :
    Wire.decode RelinearizationKey.mergeMsg none maxDepth (Wire.encode (RelinearizationKey.toFields (some m))) = some (some m) := by
  refine decode_encode _ ?_ ?_
  · intro f hf
    simp only [RelinearizationKey.toFields, Option.toList_some, List.map_singleton, List.mem_singleton] at hf
    subst hf
    exact ok_len (by decide) (by decide) hl
  · show (do let x ← (do return some (← KeySwitchingKeyMsg.mergeInto (maxDepth - 1) none m.encode)); some x) = _
    rw [KeySwitchingKeyMsg.codec h hB]; rfl

theorem RelinearizationKey.decode_spec {m : Option KeySwitchingKeyMsg} {bytes : List Nat} (h : Wire.decode RelinearizationKey.mergeMsg none maxDepth bytes = some m) (hb : IsBytes bytes) :
    ∀ x, m = some x → x.Typed := by
  refine decode_ind (P := fun m : Option KeySwitchingKeyMsg => ∀ x, m = some x → x.Typed) h hb (by simp) fun m f m' hm hp _ h2 => ?_
  unfold mergeMsg at hm
  split at hm
  · simp only [Option.bind_eq_bind, Option.bind_eq_some_iff, Option.pure_def, Option.some.injEq] at hm
    obtain ⟨x, h3, rfl⟩ := hm
    intro y hy
    cases hy
    exact KeySwitchingKeyMsg.mergeInto_spec h3 (h2 _ rfl) hp
  · split at hm <;> cases hm
    exact hp

theorem GaloisKey.codec {B : Nat} {m : KeySwitchingKeyMsg} {e : Nat} (h : m.Fits B) (hB : B < 2 ^ 64) (hl : m.encode.length < 2 ^ 64) (he : e < 2 ^ 32) (depth depth' : Nat) :
    Wire.decode (GaloisKey.mergeMsg depth) (0, none) depth' (Wire.encode (GaloisKey.toFields (e, some m))) = some (e, some m) := by
  refine decode_encode _ ?_ ?_
  · intro f hf
    simp only [GaloisKey.toFields, Option.toList_some, List.map_singleton, List.mem_append, List.mem_singleton] at hf
    rcases hf with rfl | hf
    · exact ok_len (by decide) (by decide) hl
    · rw [mem_scalar hf]; exact ok_varint (by decide) (by decide) (by omega)
  · simp only [GaloisKey.toFields, Option.toList_some, List.map_singleton, List.foldlM_append, Option.bind_eq_bind]
    have e1 : ([(1, Value.len m.encode)] : List Field).foldlM (GaloisKey.mergeMsg depth) (0, none) = some (0, some m) := by
      show (do let x ← (do return (0, some (← KeySwitchingKeyMsg.mergeInto depth none m.encode))); some x) = _
      rw [KeySwitchingKeyMsg.codec h hB]; rfl
    have e2 : (scalar 2 e).foldlM (GaloisKey.mergeMsg depth) (0, some m) = some (e, some m) := fold_scalar (fun h => by rw [h]) (by rw [mergeMsg, asU32_of_lt he])
    rw [e1, Option.bind_some, e2]

theorem GaloisKey.decode_spec {m : Nat × Option KeySwitchingKeyMsg} {depth depth' : Nat} {bytes : List Nat} (h : Wire.decode (GaloisKey.mergeMsg depth) (0, none) depth' bytes = some m) (hb : IsBytes bytes) :
    ∀ x, m.2 = some x → x.Typed := by
  refine decode_ind (P := fun m : Nat × Option KeySwitchingKeyMsg => ∀ x, m.2 = some x → x.Typed) h hb (by simp) fun m f m' hm hp _ h2 => ?_
  unfold mergeMsg at hm
  split at hm
  · simp only [Option.bind_eq_bind, Option.bind_eq_some_iff, Option.pure_def, Option.some.injEq] at hm
    obtain ⟨x, h3, rfl⟩ := hm
    intro y hy
    cases hy
    exact KeySwitchingKeyMsg.mergeInto_spec h3 (h2 _ rfl) hp
  · cases hm; exact hp
  · split at hm <;> cases hm
    exact hp

theorem EvaluationKey.codec {B : Nat} {m : EvaluationKeyMsg} (hB : B < 2 ^ 64) (h : ∀ x ∈ m.gk, ∃ k, x.2 = some k ∧ k.Fits B ∧ x.1 < 2 ^ 32) (h1 : m.ciphertextLevel < 2 ^ 32) (h2 : m.keyLevel < 2 ^ 32)
    (hl : (Wire.encode (EvaluationKey.toFields m)).length < 2 ^ 64) :
    Wire.decode EvaluationKey.mergeMsg ⟨[], 0, 0⟩ maxDepth (Wire.encode (EvaluationKey.toFields m)) = some m := by
  have hlen : ∀ x ∈ m.gk, (Wire.encode (GaloisKey.toFields x)).length < 2 ^ 64 := by
    intro x hx
    refine lt_of_le_of_lt (length_le_encode (t := 2) ?_) hl
    simp only [EvaluationKey.toFields, List.mem_append, List.mem_map]
    exact .inl (.inl ⟨x, hx, rfl⟩)
  have hdec : ∀ x ∈ m.gk, Wire.decode (GaloisKey.mergeMsg (maxDepth - 2)) (0, none) (maxDepth - 1) (Wire.encode (GaloisKey.toFields x)) = some x := by
    rintro ⟨e, o⟩ hx
    obtain ⟨k, rfl, h3, h4⟩ := h _ hx
    refine GaloisKey.codec h3 hB (lt_of_le_of_lt (length_le_encode (t := 1) ?_) (hlen _ hx)) h4 _ _
    simp [GaloisKey.toFields]
  refine decode_encode _ ?_ ?_
  · intro f hf
    simp only [EvaluationKey.toFields, List.mem_append] at hf
    rcases hf with (hf | hf) | hf
    · obtain ⟨x, hx, rfl⟩ := List.mem_map.1 hf
      exact ok_len (by decide) (by decide) (hlen x hx)
    · rw [mem_scalar hf]; exact ok_varint (by decide) (by decide) (by omega)
    · rw [mem_scalar hf]; exact ok_varint (by decide) (by decide) (by omega)
  · simp only [EvaluationKey.toFields, List.foldlM_append, Option.bind_eq_bind]
    have e1 : ∀ (l acc : List (Nat × Option KeySwitchingKeyMsg)), (∀ x ∈ l, x ∈ m.gk) →
        (l.map fun x => ((2, .len (Wire.encode (GaloisKey.toFields x))) : Field)).foldlM EvaluationKey.mergeMsg ⟨acc, 0, 0⟩ = some ⟨acc ++ l, 0, 0⟩ := by
      intro l
      induction l with
      | nil => intro acc _; rw [List.append_nil]; rfl
      | cons x l ih =>
        intro acc hx
        rw [List.map_cons, List.foldlM_cons, EvaluationKey.mergeMsg, hdec x (hx x (by simp))]
        simp only [Option.bind_eq_bind, Option.bind_some, Option.pure_def]
        rw [ih _ fun y hy => hx y (by simp [hy]), List.append_assoc]; rfl
    have e2 : (scalar 3 m.ciphertextLevel).foldlM EvaluationKey.mergeMsg ⟨m.gk, 0, 0⟩ = some ⟨m.gk, m.ciphertextLevel, 0⟩ := fold_scalar (fun h => by rw [h]) (by rw [EvaluationKey.mergeMsg, asU32_of_lt h1])
    have e3 : (scalar 4 m.keyLevel).foldlM EvaluationKey.mergeMsg ⟨m.gk, m.ciphertextLevel, 0⟩ = some m := fold_scalar (fun h => by rw [← h]) (by rw [EvaluationKey.mergeMsg, asU32_of_lt h2])
    rw [e1 m.gk [] fun _ h => h, Option.bind_some, List.nil_append, e2, Option.bind_some, e3]

theorem EvaluationKey.decode_spec {m : EvaluationKeyMsg} {bytes : List Nat} (h : Wire.decode EvaluationKey.mergeMsg ⟨[], 0, 0⟩ maxDepth bytes = some m) (hb : IsBytes bytes) :
    (∀ x ∈ m.gk, ∀ k, x.2 = some k → k.Typed) ∧ m.keyLevel < 2 ^ 32 := by
  refine decode_ind (P := fun m : EvaluationKeyMsg => (∀ x ∈ m.gk, ∀ k, x.2 = some k → k.Typed) ∧ m.keyLevel < 2 ^ 32) h hb ⟨by simp, by decide⟩ fun m f m' hm hp _ h2 => ?_
  unfold mergeMsg at hm
  split at hm
  · simp only [Option.bind_eq_bind, Option.bind_eq_some_iff, Option.pure_def, Option.some.injEq] at hm
    obtain ⟨x, h3, rfl⟩ := hm
    refine ⟨fun y hy => ?_, hp.2⟩
    rcases List.mem_append.1 hy with hy | hy
    · exact hp.1 y hy
    · rw [List.mem_singleton.1 hy]; exact GaloisKey.decode_spec h3 (h2 _ rfl)
  · cases hm; exact hp
  · cases hm; exact ⟨hp.1, Nat.mod_lt _ (by decide)⟩
  · split at hm <;> cases hm
    exact hp

theorem RgswCiphertext.codec {B : Nat} {m0 m1 : KeySwitchingKeyMsg} (h0 : m0.Fits B) (h1 : m1.Fits B) (hB : B < 2 ^ 64) (hl : (Wire.encode (RgswCiphertext.toFields ⟨some m0, some m1⟩)).length < 2 ^ 64) :
    Wire.decode RgswCiphertext.mergeMsg ⟨none, none⟩ maxDepth (Wire.encode (RgswCiphertext.toFields ⟨some m0, some m1⟩)) = some ⟨some m0, some m1⟩ := by
  refine decode_encode _ ?_ ?_
  · intro f hf
    have hf' := hf
    simp only [RgswCiphertext.toFields, Option.toList_some, List.map_singleton, List.mem_append, List.mem_singleton] at hf
    rcases hf with rfl | rfl
    · exact ok_len (by decide) (by decide) (lt_of_le_of_lt (length_le_encode hf') hl)
    · exact ok_len (by decide) (by decide) (lt_of_le_of_lt (length_le_encode hf') hl)
  · show (do let x ← (do return ({ ksk0 := some (← KeySwitchingKeyMsg.mergeInto (maxDepth - 1) none m0.encode), ksk1 := none } : RgswMsg))
             ([(2, Value.len m1.encode)] : List Field).foldlM RgswCiphertext.mergeMsg x) = _
    rw [KeySwitchingKeyMsg.codec h0 hB]
    show (do let x ← (do return ({ ksk0 := some m0, ksk1 := some (← KeySwitchingKeyMsg.mergeInto (maxDepth - 1) none m1.encode) } : RgswMsg)); some x) = _
    rw [KeySwitchingKeyMsg.codec h1 hB]; rfl

theorem RgswCiphertext.decode_spec {m : RgswMsg} {bytes : List Nat} (h : Wire.decode RgswCiphertext.mergeMsg ⟨none, none⟩ maxDepth bytes = some m) (hb : IsBytes bytes) :
    ∀ k, m.ksk0 = some k ∨ m.ksk1 = some k → k.Typed := by
  refine decode_ind (P := fun m : RgswMsg => ∀ k, m.ksk0 = some k ∨ m.ksk1 = some k → k.Typed) h hb (by simp) fun m f m' hm hp _ h2 => ?_
  unfold mergeMsg at hm
  split at hm
  · simp only [Option.bind_eq_bind, Option.bind_eq_some_iff, Option.pure_def, Option.some.injEq] at hm
    obtain ⟨x, h3, rfl⟩ := hm
    rintro y (hy | hy)
    · cases hy
      exact KeySwitchingKeyMsg.mergeInto_spec h3 (h2 _ rfl) fun z hz => hp z (.inl hz)
    · exact hp y (.inr hy)
  · simp only [Option.bind_eq_bind, Option.bind_eq_some_iff, Option.pure_def, Option.some.injEq] at hm
    obtain ⟨x, h3, rfl⟩ := hm
    rintro y (hy | hy)
    · exact hp y (.inl hy)
    · cases hy
      exact KeySwitchingKeyMsg.mergeInto_spec h3 (h2 _ rfl) fun z hz => hp z (.inr hz)
  · split at hm <;> cases hm
    exact hp

/-! ## Parameters -/

theorem ParamsMsg.codec {m : ParamsMsg} (h1 : m.degree < 2 ^ 32) (h2 : ∀ q ∈ m.moduli, q < 2 ^ 64) (h3 : m.variance < 2 ^ 32) (h4 : ∀ v, m.plaintext = some (.word v) → v < 2 ^ 64)
    (hl : (Wire.encode m.toFields).length < 2 ^ 64) : Wire.decode ParamsMsg.merge ⟨0, [], none, 0⟩ maxDepth (Wire.encode m.toFields) = some m := by
  refine decode_encode _ ?_ ?_
  · intro f hf
    have hf' := hf
    simp only [toFields, List.mem_append] at hf
    rcases hf with ((hf | hf) | hf) | hf
    · rw [mem_scalar hf]; exact ok_varint (by decide) (by decide) (by omega)
    · rw [mem_packed hf] at hf' ⊢
      exact ok_len (by decide) (by decide) (lt_of_le_of_lt (length_le_encode hf') hl)
    · split at hf
      · simp at hf
      · rename_i v hv
        rw [List.mem_singleton.1 hf]; exact ok_varint (by decide) (by decide) (h4 v hv)
      · rw [List.mem_singleton.1 hf] at hf' ⊢
        exact ok_len (by decide) (by decide) (lt_of_le_of_lt (length_le_encode hf') hl)
    · rw [mem_scalar hf]; exact ok_varint (by decide) (by decide) (by omega)
  · simp only [toFields, List.foldlM_append, Option.bind_eq_bind]
    have e1 : (scalar 1 m.degree).foldlM merge ⟨0, [], none, 0⟩ = some ⟨m.degree, [], none, 0⟩ := fold_scalar (fun h => by rw [h]) (by rw [merge, asU32_of_lt h1])
    have e2 : (packed 2 m.moduli).foldlM merge ⟨m.degree, [], none, 0⟩ = some ⟨m.degree, m.moduli, none, 0⟩ := by
      unfold packed
      split
      · rename_i h0; rw [h0]; rfl
      · rw [List.foldlM_cons, merge, readPacked_varints _ _ h2 le_rfl]; rfl
    rw [e1, Option.bind_some, e2, Option.bind_some]
    have e4 : ∀ p, m.plaintext = p → (scalar 4 m.variance).foldlM merge ⟨m.degree, m.moduli, p, 0⟩ = some m := fun p hp =>
      fold_scalar (fun h => by rw [← h, ← hp]) (by rw [merge, asU32_of_lt h3, ← hp])
    cases hp : m.plaintext with
    | none => exact e4 _ hp
    | some p =>
      cases p with
      | word v => exact e4 _ hp
      | big bytes => exact e4 _ hp

end Fhe
