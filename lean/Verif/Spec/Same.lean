import Verif.Model.Result
/-!
# The same outcome
-/
namespace Fhe

/-- Two computations end in the same way: both panic, or both return the same error, or both return a value, and the two values are related. -/
inductive Res.Same {α β : Type} (R : α → β → Prop) : Res α → Res β → Prop
  | panic : Same R Res.panic Res.panic
  | err (e : FheError) : Same R (Res.err e) (Res.err e)
  | ok {x : α} {y : β} (h : R x y) : Same R (Res.ok x) (Res.ok y)

end Fhe
