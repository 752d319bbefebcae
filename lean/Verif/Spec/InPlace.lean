import Verif.Model.InPlace
/-!
# What it means that a failed operation changes nothing
-/
namespace Fhe.InPlace
variable {σ : Type}

/-- The operation on `s` ends as the function says: with its result in place of `s` if there is one, else with its error or its panic. -/
def Matches (x : InPlace σ Unit) (s : σ) (r : Res σ) : Prop :=
  (∀ s', r = Res.ok s' → x.exec s = (.ok (), s')) ∧
  (∀ e, r = Res.err e → (x.exec s).1 = .error (.err e)) ∧
  (r = Res.panic → (x.exec s).1 = .error .panic)

/-- If the operation on `s` fails, whether with an error or with a panic, then `s` is as before. -/
def Atomic (x : InPlace σ Unit) (s : σ) : Prop := ∀ f s', x.exec s = (.error f, s') → s' = s

end Fhe.InPlace
