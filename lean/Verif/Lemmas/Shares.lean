import Verif.Lemmas.MbfvRelin
import Verif.Lemmas.BfvSer
/-!
# Sums of shares
-/
namespace Fhe
open Nega Poly Ciphertext

variable {b : Build} {n N m : Nat} {c : Context} {α : Type}

/-- Polynomials of a context, chosen for every share. -/
theorem exists_reps (h : c.WF b n) (hN : c.degree = N) {f : α → Poly .ntt} {l : List α} (hf : ∀ a ∈ l, (f a).Valid ∧ (f a).ctx = c) : ∃ F : α → IntPoly N, ∀ a ∈ l, f a = encI c .ntt (f a).vt (F a) := by
  have : ∀ a, ∃ F : IntPoly N, a ∈ l → f a = encI c .ntt (f a).vt F := fun a => by
    by_cases ha : a ∈ l
    · obtain ⟨F, e, -⟩ := exists_encI h hN (hf a ha).2 (hf a ha).1
      exact ⟨F, fun _ => e⟩
    · exact ⟨0, fun h => absurd h ha⟩
  choose F hF using this
  exact ⟨F, hF⟩

theorem foldlM_reps (h : c.WF b n) (hN : c.degree = N) {f : α → Poly .ntt} {F : α → IntPoly N} : ∀ {l : List α}, (∀ a ∈ l, f a = encI c .ntt (f a).vt (F a)) → ∀ (v : Bool) (X : IntPoly N),
    l.foldlM (fun p a => p.addAssign (f a)) (encI c .ntt v X) = some (encI c .ntt (v && l.all fun a => (f a).vt) (X + (l.map F).sum))
  | [], _, v, X => by simp
  | a :: l, hf, v, X => by
    rw [List.foldlM_cons, hf a (by simp), addAssign_encI h hN (by simp), Option.bind_eq_bind, Option.bind_some, foldlM_reps h hN fun x hx => hf x (by simp [hx])]
    simp only [List.map_cons, List.sum_cons, List.all_cons, Bool.and_assoc, add_assoc]

/-- The sum of a non-empty list does not depend on the order. -/
theorem foldlM_cons_reps (h : c.WF b n) (hN : c.degree = N) {f : α → Poly .ntt} {F : α → IntPoly N} {a : α} {l : List α} (hf : ∀ x ∈ a :: l, f x = encI c .ntt (f x).vt (F x)) :
    l.foldlM (fun p a => p.addAssign (f a)) (f a) = some (encI c .ntt ((a :: l).all fun a => (f a).vt) (((a :: l).map F).sum)) := by
  rw [hf a (by simp), foldlM_reps h hN fun x hx => hf x (by simp [hx]), List.all_cons, List.map_cons, List.sum_cons]

theorem perm_all {f : α → Bool} {l l' : List α} (h : l.Perm l') : l.all f = l'.all f := by
  rw [Bool.eq_iff_iff, List.all_eq_true, List.all_eq_true]
  exact ⟨fun hl x hx => hl x (h.mem_iff.2 hx), fun hl x hx => hl x (h.mem_iff.1 hx)⟩

theorem foldlM_perm (h : c.WF b n) (hN : c.degree = N) {f : α → Poly .ntt} {a a' : α} {l l' : List α} (hf : ∀ x ∈ a :: l, (f x).Valid ∧ (f x).ctx = c) (hp : (a :: l).Perm (a' :: l')) :
    ∃ p, l.foldlM (fun p a => p.addAssign (f a)) (f a) = some p ∧ l'.foldlM (fun p a => p.addAssign (f a)) (f a') = some p ∧ p.ctx = c := by
  obtain ⟨F, hF⟩ := exists_reps (N := N) h hN hf
  refine ⟨_, foldlM_cons_reps h hN hF, ?_, rfl⟩
  rw [foldlM_cons_reps h hN fun x hx => hF x (hp.mem_iff.2 hx), perm_all hp, (hp.map F).sum_eq]

/-! ## Lists of polynomials -/

theorem exists_reps_list (h : c.WF b n) (hN : c.degree = N) {f : α → List (Poly .ntt)} {l : List α} (hf : ∀ a ∈ l, (f a).length = m ∧ ∀ p ∈ f a, p.Valid ∧ p.ctx = c) :
    ∃ (v : α → Nat → Bool) (F : α → Nat → IntPoly N), ∀ a ∈ l, f a = tab m fun i => encI c .ntt (v a i) (F a i) := by
  have : ∀ a, ∃ (v : Nat → Bool) (F : Nat → IntPoly N), a ∈ l → f a = tab m fun i => encI c .ntt (v i) (F i) := fun a => by
    by_cases ha : a ∈ l
    · have : ∀ i : Nat, ∃ (v : Bool) (F : IntPoly N), ∀ p, (f a)[i]? = some p → p = encI c .ntt v F := fun i => by
        rcases hi : (f a)[i]? with _ | p
        · exact ⟨false, 0, fun p hp => by cases hp⟩
        · obtain ⟨h1, h2⟩ := (hf a ha).2 p (List.mem_of_getElem? hi)
          obtain ⟨F, e, -⟩ := exists_encI h hN h2 h1
          exact ⟨p.vt, F, fun q hq => by obtain rfl : p = q := by simpa using hq
                                         exact e⟩
      choose v F hF using this
      refine ⟨v, F, fun _ => ?_⟩
      apply List.ext_getElem?
      intro i
      by_cases hi : i < m
      · rw [tab_get? _ hi]
        have hi' : i < (f a).length := by rw [(hf a ha).1]; exact hi
        rw [List.getElem?_eq_getElem hi', Option.some_inj]
        exact hF i _ (List.getElem?_eq_getElem hi')
      · rw [List.getElem?_eq_none (by rw [(hf a ha).1]; omega), List.getElem?_eq_none (by rw [length_tab]; omega)]
    · exact ⟨fun _ => false, fun _ => 0, fun h => absurd h ha⟩
  choose v F hF using this
  exact ⟨v, F, hF⟩

theorem fold_zipUpdate_reps (h : c.WF b n) (hN : c.degree = N) {f g : α → List (Poly .ntt)} {v w : α → Nat → Bool} {F G : α → Nat → IntPoly N} : ∀ {l : List α},
    (∀ a ∈ l, f a = tab m fun i => encI c .ntt (v a i) (F a i)) → (∀ a ∈ l, g a = tab m fun i => encI c .ntt (w a i) (G a i)) → ∀ (v0 w0 : Nat → Bool) (X Y : Nat → IntPoly N),
    l.foldlM (fun (h : List (Poly .ntt) × List (Poly .ntt)) a => do return (← zipUpdate Poly.addAssign h.1 (f a), ← zipUpdate Poly.addAssign h.2 (g a)))
      (tab m fun i => encI c .ntt (v0 i) (X i), tab m fun i => encI c .ntt (w0 i) (Y i)) =
    some (tab m fun i => encI c .ntt (v0 i && l.all fun a => v a i) (X i + (l.map fun a => F a i).sum), tab m fun i => encI c .ntt (w0 i && l.all fun a => w a i) (Y i + (l.map fun a => G a i).sum))
  | [], _, _, v0, w0, X, Y => by simp
  | a :: l, hf, hg, v0, w0, X, Y => by
    rw [List.foldlM_cons, hf a (by simp), hg a (by simp)]
    simp only []
    rw [zipUpdate_tab (fun i _ => addAssign_encI h hN (by simp) _ _), zipUpdate_tab (fun i _ => addAssign_encI h hN (by simp) _ _)]
    simp only [Option.bind_eq_bind, Option.bind_some]
    refine (fold_zipUpdate_reps h hN (fun x hx => hf x (by simp [hx])) (fun x hx => hg x (by simp [hx])) _ _ _ _).trans ?_
    simp only [List.map_cons, List.sum_cons, List.all_cons, Bool.and_assoc, add_assoc]

theorem fold_addPairs_reps (h : c.WF b n) (hN : c.degree = N) {f g : α → List (Poly .ntt)} {v w : α → Nat → Bool} {F G : α → Nat → IntPoly N} : ∀ {l : List α},
    (∀ a ∈ l, f a = tab m fun i => encI c .ntt (v a i) (F a i)) → (∀ a ∈ l, g a = tab m fun i => encI c .ntt (w a i) (G a i)) → ∀ (v0 w0 : Nat → Bool) (X Y : Nat → IntPoly N),
    l.foldlM (fun (h : List (Poly .ntt) × List (Poly .ntt)) a => addPairs h.1 h.2 (f a) (g a))
      (tab m fun i => encI c .ntt (v0 i) (X i), tab m fun i => encI c .ntt (w0 i) (Y i)) =
    some (tab m fun i => encI c .ntt (v0 i && l.all fun a => v a i) (X i + (l.map fun a => F a i).sum), tab m fun i => encI c .ntt (w0 i && l.all fun a => w a i) (Y i + (l.map fun a => G a i).sum))
  | [], _, _, v0, w0, X, Y => by simp
  | a :: l, hf, hg, v0, w0, X, Y => by
    rw [List.foldlM_cons, hf a (by simp), hg a (by simp)]
    simp only []
    rw [addPairs_tab (fun i _ => addAssign_encI h hN (by simp) _ _) (fun i _ => addAssign_encI h hN (by simp) _ _)]
    simp only [Option.bind_eq_bind, Option.bind_some]
    refine (fold_addPairs_reps h hN (fun x hx => hf x (by simp [hx])) (fun x hx => hg x (by simp [hx])) _ _ _ _).trans ?_
    simp only [List.map_cons, List.sum_cons, List.all_cons, Bool.and_assoc, add_assoc]

theorem tab_perm {v : α → Nat → Bool} {F : α → Nat → IntPoly N} {a a' : α} {l l' : List α} (hp : (a :: l).Perm (a' :: l')) :
    (tab m fun i => encI c .ntt (v a i && l.all fun x => v x i) (F a i + (l.map fun x => F x i).sum)) = tab m fun i => encI c .ntt (v a' i && l'.all fun x => v x i) (F a' i + (l'.map fun x => F x i).sum) := by
  have e1 : ∀ i, (v a i && l.all fun x => v x i) = (v a' i && l'.all fun x => v x i) := fun i => by
    rw [← List.all_cons (f := fun x => v x i), ← List.all_cons (f := fun x => v x i)]
    exact perm_all hp
  have e2 : ∀ i, F a i + (l.map fun x => F x i).sum = F a' i + (l'.map fun x => F x i).sum := fun i => by
    have := (hp.map fun x => F x i).sum_eq
    simpa only [List.map_cons, List.sum_cons] using this
  simp only [e1, e2]

theorem fold_zipUpdate_perm (h : c.WF b n) (hN : c.degree = N) {f g : α → List (Poly .ntt)} {a a' : α} {l l' : List α} (hf : ∀ x ∈ a :: l, (f x).length = m ∧ ∀ p ∈ f x, p.Valid ∧ p.ctx = c)
    (hg : ∀ x ∈ a :: l, (g x).length = m ∧ ∀ p ∈ g x, p.Valid ∧ p.ctx = c) (hp : (a :: l).Perm (a' :: l')) :
    ∃ r, l.foldlM (fun (h : List (Poly .ntt) × List (Poly .ntt)) a => do return (← zipUpdate Poly.addAssign h.1 (f a), ← zipUpdate Poly.addAssign h.2 (g a))) (f a, g a) = some r ∧
      l'.foldlM (fun (h : List (Poly .ntt) × List (Poly .ntt)) a => do return (← zipUpdate Poly.addAssign h.1 (f a), ← zipUpdate Poly.addAssign h.2 (g a))) (f a', g a') = some r := by
  obtain ⟨v, F, hF⟩ := exists_reps_list (N := N) h hN hf
  obtain ⟨w, G, hG⟩ := exists_reps_list (N := N) h hN hg
  rw [hF a (by simp), hG a (by simp), hF a' (hp.mem_iff.2 (by simp)), hG a' (hp.mem_iff.2 (by simp)),
    fold_zipUpdate_reps h hN (fun x hx => hF x (by simp [hx])) (fun x hx => hG x (by simp [hx])),
    fold_zipUpdate_reps h hN (fun x hx => hF x (hp.mem_iff.2 (by simp [hx]))) (fun x hx => hG x (hp.mem_iff.2 (by simp [hx])))]
  exact ⟨_, rfl, by rw [tab_perm hp, tab_perm hp]⟩

theorem fold_addPairs_perm (h : c.WF b n) (hN : c.degree = N) {f g : α → List (Poly .ntt)} {a a' : α} {l l' : List α} (hf : ∀ x ∈ a :: l, (f x).length = m ∧ ∀ p ∈ f x, p.Valid ∧ p.ctx = c)
    (hg : ∀ x ∈ a :: l, (g x).length = m ∧ ∀ p ∈ g x, p.Valid ∧ p.ctx = c) (hp : (a :: l).Perm (a' :: l')) :
    ∃ r, l.foldlM (fun (h : List (Poly .ntt) × List (Poly .ntt)) a => addPairs h.1 h.2 (f a) (g a)) (f a, g a) = some r ∧
      l'.foldlM (fun (h : List (Poly .ntt) × List (Poly .ntt)) a => addPairs h.1 h.2 (f a) (g a)) (f a', g a') = some r := by
  obtain ⟨v, F, hF⟩ := exists_reps_list (N := N) h hN hf
  obtain ⟨w, G, hG⟩ := exists_reps_list (N := N) h hN hg
  rw [hF a (by simp), hG a (by simp), hF a' (hp.mem_iff.2 (by simp)), hG a' (hp.mem_iff.2 (by simp)),
    fold_addPairs_reps h hN (fun x hx => hF x (by simp [hx])) (fun x hx => hG x (by simp [hx])),
    fold_addPairs_reps h hN (fun x hx => hF x (hp.mem_iff.2 (by simp [hx]))) (fun x hx => hG x (hp.mem_iff.2 (by simp [hx])))]
  exact ⟨_, rfl, by rw [tab_perm hp, tab_perm hp]⟩

end Fhe
