import Verif.Spec.Pir
import Verif.Lemmas.Util
import Verif.Lemmas.BfvPlain
import Verif.Lemmas.RqConv
/-!
# The database of the PIR examples
-/
namespace Fhe

theorem padTo_append {N : Nat} {v : List Nat} (h : v.length ≤ N) : padTo N v = v ++ List.replicate (N - v.length) 0 := by
  refine List.ext_getElem (by simp [padTo]; omega) fun i h1 h2 => ?_
  simp only [padTo, List.getElem_map, List.getElem_range, List.getElem_append, List.getElem_replicate]
  split
  · rw [List.getD_eq_getElem _ _ (by assumption)]
  · rw [List.getD_eq_default _ _ (by omega)]

/-- Zeroes after the words do not matter. -/
theorem IsRechunk.back_pad {k n : Nat} (hk : 0 < k) (hn : 0 < n) {a r s : List Nat} {z : Nat} (ha : ∀ x ∈ a, x < 2 ^ k) (h1 : IsRechunk k n a r)
    (h2 : IsRechunk n k (r ++ List.replicate z 0) s) : s = a ++ List.replicate (s.length - a.length) 0 := by
  obtain ⟨-, r2, r3⟩ := h1
  obtain ⟨s1, s2, s3⟩ := h2
  have hle : a.length ≤ s.length := by
    have h1 : a.length * k ≤ r.length * n := by
      rw [r2]
      have := Nat.div_add_mod (a.length * k + n - 1) n
      have := Nat.mod_lt (a.length * k + n - 1) hn
      rw [Nat.mul_comm _ n]; omega
    rw [s2, Nat.le_div_iff_mul_le hk, List.length_append, Nat.add_mul]
    omega
  apply Nat.ofDigits_inj_of_len_eq (b := 2 ^ k) (Nat.one_lt_two_pow (by omega))
  · rw [List.length_append, List.length_replicate]; omega
  · exact s1
  · intro x hx
    rcases List.mem_append.1 hx with hx | hx
    · exact ha x hx
    · rw [List.eq_of_mem_replicate hx]; positivity
  · rw [s3, Nat.ofDigits_append_replicate_zero, r3, Nat.ofDigits_append_replicate_zero]

namespace Pir

theorem ceilSqrt_pos {n : Nat} (h : 0 < n) : 0 < ceilSqrt n := by
  unfold ceilSqrt
  split
  · exact Nat.sqrt_pos.2 h
  · omega

theorem le_ceil_mul {a b : Nat} (h : 0 < b) : a ≤ b * ((a + b - 1) / b) := by
  have := Nat.div_add_mod (a + b - 1) b
  have := Nat.mod_lt (a + b - 1) h
  omega

theorem divCeil_eq {a b : Nat} (h : 0 < b) : divCeil a b = some ((a + b - 1) / b) := by
  unfold divCeil
  rw [check_eq (by omega)]; rfl

theorem flatten_slice {α : Type} {size : Nat} : ∀ {parts : List (List α)} {j : Nat} {e : List α}, (∀ x ∈ parts, x.length = size) → parts[j]? = some e →
    (parts.flatten.drop (j * size)).take size = e
  | [], j, e, _, h => by simp at h
  | p :: parts, 0, e, hp, h => by
    simp only [List.getElem?_cons_zero, Option.some_inj] at h
    subst h
    rw [Nat.zero_mul, List.drop_zero, List.flatten_cons, ← hp p (by simp), List.take_left]
  | p :: parts, j + 1, e, hp, h => by
    have hl := hp p (by simp)
    rw [List.flatten_cons, Nat.succ_mul, Nat.add_comm (j * size), ← List.drop_drop]
    have : (p ++ parts.flatten).drop size = parts.flatten := by rw [← hl, List.drop_left]
    rw [this]
    exact flatten_slice (fun x hx => hp x (by simp [hx])) (by simpa using h)

theorem rowBytes_eq {database : List (List Nat)} {size per : Nat} (hdb : ∀ e ∈ database, e.length = size ∧ IsBytes e) (i : Nat) :
    ∃ bytes, rowBytes database size per i = some bytes ∧ bytes.length = per * size ∧ IsBytes bytes ∧
      ∀ j < per, ∀ e, database[j + i * per]? = some e → (bytes.drop (j * size)).take size = e := by
  set f : Nat → List Nat := fun j => (database[j + i * per]?).getD (List.replicate size 0) with hf
  have hlen : ∀ j, (f j).length = size ∧ IsBytes (f j) := by
    intro j
    simp only [hf]
    cases he : database[j + i * per]? with
    | none => exact ⟨by simp, fun x hx => by rw [Option.getD_none] at hx; rw [List.eq_of_mem_replicate hx]; decide⟩
    | some e => exact hdb e (List.mem_of_getElem? he)
  refine ⟨((List.range per).map f).flatten, by
    unfold rowBytes
    rw [mapM_eq_some_map (g := f) fun j _ => ?_]
    · rfl
    · simp only [hf]
      cases he : database[j + i * per]? with
      | none => rfl
      | some e =>
        simp only [check_eq (hdb e (List.mem_of_getElem? he)).1]
        rfl, ?_, ?_, fun j hj e he => ?_⟩
  · rw [List.length_flatten, List.map_map]
    have : (List.length ∘ f) = fun _ => size := by funext j; exact (hlen j).1
    rw [this]; simp
  · intro x hx
    obtain ⟨l, hl, hx⟩ := List.mem_flatten.1 hx
    obtain ⟨j, -, rfl⟩ := List.mem_map.1 hl
    exact (hlen j).2 x hx
  · refine flatten_slice (fun x hx => ?_) ?_
    · obtain ⟨j, -, rfl⟩ := List.mem_map.1 hx
      exact (hlen j).1
    · rw [List.getElem?_map, List.getElem?_range hj, Option.map_some, hf]
      simp [he]

end Pir
end Fhe
