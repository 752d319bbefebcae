import Verif.Spec.WireText
import Verif.Lemmas.Wire
import Mathlib.Tactic.Ring
/-!
# Reading is the inverse of the grammar
-/
namespace Fhe.Wire

theorem readVarint_complete : ∀ (k : Nat) (front : List Nat) (last : Nat) (rest : List Nat), (∀ x ∈ front, 128 ≤ x ∧ x < 256) → last < 128 → front.length ≤ k →
    Nat.ofDigits 128 ((front ++ [last]).map (· % 128)) < 2 ^ (7 * k + 1) → readVarint (k + 1) (front ++ [last] ++ rest) = some (Nat.ofDigits 128 ((front ++ [last]).map (· % 128)), rest)
  | k, [], last, rest, _, hl, _, hn => by
    simp only [List.nil_append, List.map_cons, List.map_nil, Nat.ofDigits_singleton, Nat.mod_eq_of_lt hl, List.singleton_append] at hn ⊢
    rw [readVarint, if_pos hl, if_neg]
    rintro ⟨rfl, h⟩
    simp at hn
    omega
  | 0, x :: front, last, rest, _, _, h, _ => by simp at h
  | k + 1, x :: front, last, rest, hf, hl, hk, hn => by
    have hx := hf x (by simp)
    simp only [List.cons_append, List.map_cons, Nat.ofDigits_cons] at hn ⊢
    rw [readVarint, if_neg (by omega)]
    have ih := readVarint_complete k front last rest (fun y hy => hf y (by simp [hy])) hl (by simpa using hk) (by
      have e : 2 ^ (7 * (k + 1) + 1) = 128 * 2 ^ (7 * k + 1) := by ring
      rw [e] at hn
      exact Nat.lt_of_mul_lt_mul_left (lt_of_le_of_lt (Nat.le_add_left _ _) hn))
    rw [ih]
    simp only [Option.bind_eq_bind, Option.bind_some, Option.pure_def, Option.some.injEq, Prod.mk.injEq, and_true]
    have : x % 128 = x - 128 := by omega
    rw [this]

theorem readVarint_sound : ∀ (k : Nat) (l : List Nat) (n : Nat) (rest : List Nat), readVarint (k + 1) l = some (n, rest) → IsBytes l →
    ∃ front last, l = front ++ [last] ++ rest ∧ (∀ x ∈ front, 128 ≤ x ∧ x < 256) ∧ last < 128 ∧ front.length ≤ k ∧ n = Nat.ofDigits 128 ((front ++ [last]).map (· % 128))
  | _, [], n, rest, h, _ => by simp [readVarint] at h
  | k, x :: l, n, rest, h, hb => by
    rw [readVarint] at h
    split at h
    · rename_i h1
      split at h
      · simp at h
      · simp only [Option.some.injEq, Prod.mk.injEq] at h
        obtain ⟨rfl, rfl⟩ := h
        exact ⟨[], x, rfl, by simp, h1, by simp, by simp [Nat.mod_eq_of_lt h1]⟩
    · rename_i h1
      simp only [Option.bind_eq_bind, Option.bind_eq_some_iff, Option.pure_def, Option.some.injEq, Prod.mk.injEq, Prod.exists] at h
      obtain ⟨v', rest', h3, rfl, rfl⟩ := h
      cases k with
      | zero => simp [readVarint] at h3
      | succ k =>
        obtain ⟨front, last, rfl, h4, h5, h6, rfl⟩ := readVarint_sound k l v' rest' h3 fun y hy => hb y (List.mem_cons_of_mem _ hy)
        have hx := hb x (by simp)
        refine ⟨x :: front, last, rfl, ?_, h5, by simpa using h6, ?_⟩
        · intro y hy
          rcases List.mem_cons.1 hy with rfl | hy
          · exact ⟨by omega, by simpa using hx⟩
          · exact h4 y hy
        · simp only [List.cons_append, List.map_cons, Nat.ofDigits_cons]
          have : x % 128 = x - 128 := by omega
          rw [this]

theorem readVarint_iff {l rest : List Nat} {n : Nat} (hb : IsBytes l) : readVarint 10 l = some (n, rest) ↔ ∃ v, l = v ++ rest ∧ IsNumber v n := by
  constructor
  · intro h
    obtain ⟨front, last, h1, h2, h3, h4, h5⟩ := readVarint_sound 9 l n rest h hb
    exact ⟨_, h1, front, last, rfl, h2, h3, by simpa using h4, h5, (readVarint_spec 9 l n rest h hb).1⟩
  · rintro ⟨v, rfl, front, last, rfl, h2, h3, h4, rfl, h6⟩
    exact readVarint_complete 9 front last rest h2 h3 (by simpa using h4) h6

theorem IsNumber.read {v : List Nat} {n : Nat} (h : IsNumber v n) (rest : List Nat) : readVarint 10 (v ++ rest) = some (n, rest) := by
  obtain ⟨front, last, rfl, h2, h3, h4, rfl, h6⟩ := h
  exact readVarint_complete 9 front last rest h2 h3 (by simpa using h4) h6

theorem IsNumber.pos {v : List Nat} {n : Nat} (h : IsNumber v n) : 1 ≤ v.length := by
  obtain ⟨front, last, rfl, -⟩ := h
  simp

theorem IsKey.read {k : List Nat} {t w : Nat} (h : IsKey k t w) (hw : w < 6) (rest : List Nat) : readKey (k ++ rest) = some (t, w, rest) := by
  obtain ⟨h1, h2, h3⟩ := h
  unfold readKey
  rw [h1.read]
  simp only [Option.bind_eq_bind, Option.bind_some]
  rw [if_pos (by omega)]
  simp only [Option.pure_def, Option.some.injEq, Prod.mk.injEq, and_true]
  omega

theorem readKey_sound {l rest : List Nat} {t w : Nat} (h : readKey l = some (t, w, rest)) (hb : IsBytes l) : w < 6 ∧ ∃ k, l = k ++ rest ∧ IsKey k t w := by
  unfold readKey at h
  simp only [Option.bind_eq_bind, Option.bind_eq_some_iff, Prod.exists] at h
  obtain ⟨key, r, h1, h2⟩ := h
  split at h2
  · rename_i h3
    simp only [Option.pure_def, Option.some.injEq, Prod.mk.injEq] at h2
    obtain ⟨rfl, rfl, rfl⟩ := h2
    obtain ⟨v, hv, h4⟩ := (readVarint_iff hb).1 h1
    exact ⟨h3.2.1, v, hv, by rwa [Nat.div_add_mod' key 8], by omega, by omega⟩
  · simp at h2

/-- What the grammar says about a value that is not a group. -/
theorem readValue_sound {l rest : List Nat} {w : Nat} {x : Value} (h : readValue w l = some (x, rest)) (hb : IsBytes l) :
    (w = 0 ∧ ∃ v n, l = v ++ rest ∧ x = .varint n ∧ IsNumber v n) ∨ (w = 1 ∧ ∃ v, l = v ++ rest ∧ x = .fixed64 ∧ v.length = 8) ∨
    (w = 2 ∧ ∃ v p, l = v ++ p ++ rest ∧ x = .len p ∧ IsNumber v p.length) ∨ (w = 5 ∧ ∃ v, l = v ++ rest ∧ x = .fixed32 ∧ v.length = 4) := by
  unfold readValue at h
  split at h
  · simp only [Option.bind_eq_bind, Option.bind_eq_some_iff, Prod.exists, Option.pure_def, Option.some.injEq, Prod.mk.injEq] at h
    obtain ⟨n, r, h1, rfl, rfl⟩ := h
    obtain ⟨v, h2, h3⟩ := (readVarint_iff hb).1 h1
    exact .inl ⟨rfl, v, n, h2, rfl, h3⟩
  · simp only [skipBytes, Option.bind_eq_bind, Option.bind_eq_some_iff, Option.pure_def, Option.some.injEq, Prod.mk.injEq] at h
    obtain ⟨r, h1, rfl, rfl⟩ := h
    split at h1 <;> simp at h1
    exact .inr (.inl ⟨rfl, l.take 8, by rw [← h1, List.take_append_drop], rfl, by simp; omega⟩)
  · simp only [Option.bind_eq_bind, Option.bind_eq_some_iff, Prod.exists] at h
    obtain ⟨n, r, h1, h2⟩ := h
    split at h2 <;> simp only [Option.pure_def, Option.some.injEq, Prod.mk.injEq, reduceCtorEq] at h2
    obtain ⟨rfl, rfl⟩ := h2
    obtain ⟨v, h3, h4⟩ := (readVarint_iff hb).1 h1
    refine .inr (.inr (.inl ⟨rfl, v, r.take n, by rw [List.append_assoc, List.take_append_drop, h3], rfl, ?_⟩))
    rw [List.length_take, Nat.min_eq_left ‹_›]
    exact h4
  · simp only [skipBytes, Option.bind_eq_bind, Option.bind_eq_some_iff, Option.pure_def, Option.some.injEq, Prod.mk.injEq] at h
    obtain ⟨r, h1, rfl, rfl⟩ := h
    split at h1 <;> simp at h1
    exact .inr (.inr (.inr ⟨rfl, l.take 4, by rw [← h1, List.take_append_drop], rfl, by simp; omega⟩))
  · simp at h

theorem readValue_number {v : List Nat} {n : Nat} (h : IsNumber v n) (rest : List Nat) : readValue 0 (v ++ rest) = some (.varint n, rest) := by
  simp [readValue, h.read]

theorem readValue_fixed64 {v : List Nat} (h : v.length = 8) (rest : List Nat) : readValue 1 (v ++ rest) = some (.fixed64, rest) := by
  simp [readValue, skipBytes, ← h]

theorem readValue_fixed32 {v : List Nat} (h : v.length = 4) (rest : List Nat) : readValue 5 (v ++ rest) = some (.fixed32, rest) := by
  simp [readValue, skipBytes, ← h]

theorem readValue_bytes {v p : List Nat} (h : IsNumber v p.length) (rest : List Nat) : readValue 2 (v ++ p ++ rest) = some (.len p, rest) := by
  simp [readValue, List.append_assoc, h.read]

/-- Skipping a group: its fields, then its end. -/
theorem IsFields.skip {d : Nat} {c : List Nat} {fs : List Field} (h : IsFields d c fs) : ∀ (fuel tag : Nat) (e rest : List Nat), IsKey e tag 4 → (c ++ e).length ≤ fuel →
    skipGroup fuel d tag (c ++ e ++ rest) = some rest := by
  induction h with
  | nil d =>
    intro fuel tag e rest he hf
    obtain ⟨f, rfl⟩ : ∃ f, fuel = f + 1 := ⟨fuel - 1, by have := he.1.pos; simp at hf; omega⟩
    rw [skipGroup, List.nil_append, he.read (by omega)]
    simp
  | @number d k t v n r fs hk hv hr ih =>
    intro fuel tag e rest he hf
    have := hk.1.pos
    obtain ⟨f, rfl⟩ : ∃ f, fuel = f + 1 := ⟨fuel - 1, by simp at hf; omega⟩
    rw [skipGroup, show k ++ v ++ r ++ e ++ rest = k ++ (v ++ (r ++ e ++ rest)) by simp, hk.read (by omega)]
    simp [readValue_number hv]
    simpa using ih f tag e rest he (by simp at hf ⊢; omega)
  | @fixed64 d k t v r fs hk hv hr ih =>
    intro fuel tag e rest he hf
    have := hk.1.pos
    obtain ⟨f, rfl⟩ : ∃ f, fuel = f + 1 := ⟨fuel - 1, by simp at hf; omega⟩
    rw [skipGroup, show k ++ v ++ r ++ e ++ rest = k ++ (v ++ (r ++ e ++ rest)) by simp, hk.read (by omega)]
    simp [readValue_fixed64 hv]
    simpa using ih f tag e rest he (by simp at hf ⊢; omega)
  | @bytes d k t v p r fs hk hv hr ih =>
    intro fuel tag e rest he hf
    have := hk.1.pos
    obtain ⟨f, rfl⟩ : ∃ f, fuel = f + 1 := ⟨fuel - 1, by simp at hf; omega⟩
    have h2 := readValue_bytes hv (r ++ e ++ rest)
    simp only [List.append_assoc] at h2
    rw [skipGroup, show k ++ (v ++ p) ++ r ++ e ++ rest = k ++ (v ++ (p ++ (r ++ (e ++ rest)))) by simp, hk.read (by omega)]
    simp [h2]
    simpa using ih f tag e rest he (by simp at hf ⊢; omega)
  | @group d k t c inner e' r fs hk hc he' hr ih1 ih2 =>
    intro fuel tag e rest he hf
    have := hk.1.pos
    obtain ⟨f, rfl⟩ : ∃ f, fuel = f + 1 := ⟨fuel - 1, by simp at hf; omega⟩
    have h1 := ih1 f t e' (r ++ e ++ rest) he' (by simp at hf ⊢; omega)
    have h2 := ih2 f tag e rest he (by simp at hf ⊢; omega)
    simp only [List.append_assoc] at h1 h2
    rw [skipGroup, show k ++ (c ++ e') ++ r ++ e ++ rest = k ++ (c ++ (e' ++ (r ++ (e ++ rest)))) by simp, hk.read (by omega)]
    simp [h1, h2]
  | @fixed32 d k t v r fs hk hv hr ih =>
    intro fuel tag e rest he hf
    have := hk.1.pos
    obtain ⟨f, rfl⟩ : ∃ f, fuel = f + 1 := ⟨fuel - 1, by simp at hf; omega⟩
    rw [skipGroup, show k ++ v ++ r ++ e ++ rest = k ++ (v ++ (r ++ e ++ rest)) by simp, hk.read (by omega)]
    simp [readValue_fixed32 hv]
    simpa using ih f tag e rest he (by simp at hf ⊢; omega)

theorem readFields_step {fuel depth : Nat} {l r r' : List Nat} {t w : Nat} {v : Value} {fs : List Field} (h1 : readKey l = some (t, w, r)) (h2 : readAny depth t w r = some (v, r'))
    (h3 : readFields fuel depth r' = some fs) : readFields (fuel + 1) depth l = some ((t, v) :: fs) := by
  cases l with
  | nil => simp [readKey, readVarint] at h1
  | cons x l => simp [readFields, h1, h2, h3]

theorem IsFields.read {d : Nat} {l : List Nat} {fs : List Field} (h : IsFields d l fs) : ∀ fuel, l.length ≤ fuel → readFields fuel d l = some fs := by
  induction h with
  | nil d => intro fuel _; cases fuel <;> rfl
  | @number d k t v n r fs hk hv hr ih =>
    intro fuel hf
    have := hk.1.pos
    obtain ⟨f, rfl⟩ : ∃ f, fuel = f + 1 := ⟨fuel - 1, by simp at hf; omega⟩
    rw [List.append_assoc]
    exact readFields_step (hk.read (by omega) _) (by simpa [readAny] using readValue_number hv r) (ih f (by simp at hf; omega))
  | @fixed64 d k t v r fs hk hv hr ih =>
    intro fuel hf
    have := hk.1.pos
    obtain ⟨f, rfl⟩ : ∃ f, fuel = f + 1 := ⟨fuel - 1, by simp at hf; omega⟩
    rw [List.append_assoc]
    exact readFields_step (hk.read (by omega) _) (by simpa [readAny] using readValue_fixed64 hv r) (ih f (by simp at hf; omega))
  | @bytes d k t v p r fs hk hv hr ih =>
    intro fuel hf
    have := hk.1.pos
    obtain ⟨f, rfl⟩ : ∃ f, fuel = f + 1 := ⟨fuel - 1, by simp at hf; omega⟩
    rw [List.append_assoc]
    exact readFields_step (hk.read (by omega) _) (by simpa [readAny] using readValue_bytes hv r) (ih f (by simp at hf; omega))
  | @group d k t c inner e r fs hk hc he hr ih1 ih2 =>
    intro fuel hf
    have := hk.1.pos
    obtain ⟨f, rfl⟩ : ∃ f, fuel = f + 1 := ⟨fuel - 1, by simp at hf; omega⟩
    rw [List.append_assoc]
    refine readFields_step (hk.read (by omega) _) (r' := r) ?_ (ih2 f (by simp at hf; omega))
    rw [readAny, if_pos rfl, if_neg (by omega), Nat.add_sub_cancel, hc.skip _ t e r he (by simp)]
    rfl
  | @fixed32 d k t v r fs hk hv hr ih =>
    intro fuel hf
    have := hk.1.pos
    obtain ⟨f, rfl⟩ : ∃ f, fuel = f + 1 := ⟨fuel - 1, by simp at hf; omega⟩
    rw [List.append_assoc]
    exact readFields_step (hk.read (by omega) _) (by simpa [readAny] using readValue_fixed32 hv r) (ih f (by simp at hf; omega))

/-- A value that is not a group, in front of more fields. -/
theorem IsFields.cons_value {d t w : Nat} {k l r : List Nat} {v : Value} {fs : List Field} (hk : IsKey k t w) (hv : readValue w l = some (v, r)) (hb : IsBytes l) :
    ∃ a, l = a ++ r ∧ ∀ c, IsFields (d + 1) c fs → IsFields (d + 1) (k ++ a ++ c) ((t, v) :: fs) := by
  rcases readValue_sound hv hb with ⟨rfl, a, n, h1, rfl, h2⟩ | ⟨rfl, a, h1, rfl, h2⟩ | ⟨rfl, a, p, h1, rfl, h2⟩ | ⟨rfl, a, h1, rfl, h2⟩
  · exact ⟨a, h1, fun c hc => .number hk h2 hc⟩
  · exact ⟨a, h1, fun c hc => .fixed64 hk h2 hc⟩
  · exact ⟨a ++ p, h1, fun c hc => .bytes hk h2 hc⟩
  · exact ⟨a, h1, fun c hc => .fixed32 hk h2 hc⟩

theorem skipGroup_sound : ∀ (fuel d tag : Nat) (l rest : List Nat), skipGroup fuel d tag l = some rest → IsBytes l → ∃ c fs e, l = c ++ e ++ rest ∧ IsFields d c fs ∧ IsKey e tag 4
  | 0, _, _, _, _, h, _ => by simp [skipGroup] at h
  | fuel + 1, d, tag, l, rest, h, hb => by
    rw [skipGroup] at h
    simp only [Option.bind_eq_bind, Option.bind_eq_some_iff, Prod.exists] at h
    obtain ⟨t, w, r, h1, h2⟩ := h
    obtain ⟨-, k, rfl, hk⟩ := readKey_sound h1 hb
    have hb' : IsBytes r := hb.right
    split at h2
    · rename_i hw
      subst hw
      split at h2 <;> simp at h2
      subst h2
      rename_i ht
      subst ht
      exact ⟨[], [], k, by simp, .nil d, hk⟩
    · split at h2
      · simp at h2
      · obtain ⟨d', rfl⟩ : ∃ d', d = d' + 1 := ⟨d - 1, by omega⟩
        split at h2
        · rename_i hw
          subst hw
          simp only [Option.bind_eq_some_iff] at h2
          obtain ⟨r', h5, h6⟩ := h2
          obtain ⟨c, fs, e, rfl, h7, h8⟩ := skipGroup_sound _ _ _ _ _ h5 hb'
          obtain ⟨c', fs', e', rfl, h9, h10⟩ := skipGroup_sound _ _ _ _ _ h6 hb'.right
          rw [Nat.add_sub_cancel] at h7
          exact ⟨k ++ (c ++ e) ++ c', _, e', by simp, .group hk h7 h8 h9, h10⟩
        · simp only [Option.bind_eq_some_iff, Prod.exists] at h2
          obtain ⟨v, r', h5, h6⟩ := h2
          obtain ⟨⟨a', ha'⟩, -⟩ := readValue_spec h5 hb'
          obtain ⟨c', fs', e', rfl, h9, h10⟩ := skipGroup_sound _ _ _ _ _ h6 (by rw [ha'] at hb'; exact hb'.right)
          obtain ⟨a, rfl, h7⟩ := IsFields.cons_value (d := d') (fs := fs') hk h5 hb'
          exact ⟨k ++ a ++ c', _, e', by simp, h7 c' h9, h10⟩

theorem readFields_sound : ∀ (fuel d : Nat) (l : List Nat) (fs : List Field), readFields fuel (d + 1) l = some fs → IsBytes l → IsFields (d + 1) l fs
  | fuel, d, [], fs, h, _ => by
    rw [readFields, Option.some.injEq] at h
    subst h
    exact .nil _
  | 0, _, x :: l, fs, h, _ => by simp [readFields] at h
  | fuel + 1, d, x :: l, fs, h, hb => by
    simp only [readFields, Option.bind_eq_bind, Option.bind_eq_some_iff, Prod.exists, Option.pure_def, Option.some.injEq] at h
    obtain ⟨t, w, r, h1, v, r', h2, fs', h3, rfl⟩ := h
    obtain ⟨-, k, hl, hk⟩ := readKey_sound h1 hb
    rw [hl] at hb ⊢
    have hb' : IsBytes r := hb.right
    obtain ⟨⟨a', ha'⟩, -⟩ := readAny_spec h2 hb'
    have ih := readFields_sound fuel d r' fs' h3 (by rw [ha'] at hb'; exact hb'.right)
    unfold readAny at h2
    split at h2
    · rename_i hw
      subst hw
      rw [if_neg (by omega)] at h2
      simp only [Option.bind_eq_bind, Option.bind_eq_some_iff, Option.pure_def, Option.some.injEq, Prod.mk.injEq] at h2
      obtain ⟨r'', h4, rfl, rfl⟩ := h2
      obtain ⟨c, inner, e, rfl, h5, h6⟩ := skipGroup_sound _ _ _ _ _ h4 hb'
      rw [Nat.add_sub_cancel] at h5
      rw [← List.append_assoc]
      exact .group hk h5 h6 ih
    · obtain ⟨a, rfl, h5⟩ := IsFields.cons_value (d := d) (fs := fs') hk h2 hb'
      rw [← List.append_assoc]
      exact h5 _ ih

/-- The reader accepts exactly the bytes of the grammar. -/
theorem readFields_iff {d : Nat} {l : List Nat} {fs : List Field} (hb : IsBytes l) : readFields l.length (d + 1) l = some fs ↔ IsFields (d + 1) l fs :=
  ⟨fun h => readFields_sound _ _ _ _ h hb, fun h => h.read _ le_rfl⟩

/-- The numbers of a packed field. -/
theorem readPacked_iff : ∀ (fuel : Nat) (bytes l : List Nat), bytes.length ≤ fuel → IsBytes bytes → (readPacked fuel bytes = some l ↔ ∃ chunks, bytes = chunks.flatten ∧ List.Forall₂ IsNumber chunks l)
  | fuel, [], l, _, _ => by
    rw [readPacked, Option.some.injEq]
    constructor
    · rintro rfl
      exact ⟨[], rfl, .nil⟩
    · rintro ⟨chunks, h1, h2⟩
      cases h2 with
      | nil => rfl
      | cons h3 _ =>
        have := h3.pos
        have h4 := congrArg List.length h1
        simp at h4
        omega
  | 0, x :: bytes, l, h, _ => by simp at h
  | fuel + 1, x :: bytes, l, h, hb => by
    simp only [readPacked, Option.bind_eq_bind, Option.bind_eq_some_iff, Prod.exists, Option.pure_def, Option.some.injEq]
    constructor
    · rintro ⟨n, r, h1, l', h2, rfl⟩
      obtain ⟨v, hv, h3⟩ := (readVarint_iff hb).1 h1
      have h4 := congrArg List.length hv
      have := h3.pos
      simp only [List.length_cons, List.length_append] at h4 h
      obtain ⟨chunks, rfl, h5⟩ := (readPacked_iff fuel r l' (by omega) (by rw [hv] at hb; exact hb.right)).1 h2
      exact ⟨v :: chunks, hv, .cons h3 h5⟩
    · rintro ⟨chunks, h1, h2⟩
      cases h2 with
      | nil => simp at h1
      | @cons v n chunks l' h3 h4 =>
        rw [List.flatten_cons] at h1
        have h5 := congrArg List.length h1
        have := h3.pos
        simp only [List.length_cons, List.length_append] at h5 h
        rw [h1] at hb ⊢
        exact ⟨n, chunks.flatten, h3.read _, l', (readPacked_iff fuel _ l' (by omega) hb.right).2 ⟨chunks, rfl, h4⟩, rfl⟩

end Fhe.Wire
