/-! # Naming conventions: specification vocabulary (independent of the model) -/

namespace Ludtwig.Naming

/-- `Runs ok sep s`: `s` is a non-empty sequence of non-empty words over `ok`, joined by single
separators `sep`. -/
inductive Runs (ok : Char → Bool) (sep : Char) : List Char → Prop
  | single (w : List Char) : w ≠ [] → (∀ c ∈ w, ok c = true) → Runs ok sep w
  | join (w s : List Char) : w ≠ [] → (∀ c ∈ w, ok c = true) → Runs ok sep s →
      Runs ok sep (w ++ sep :: s)

end Ludtwig.Naming
