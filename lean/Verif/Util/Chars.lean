import Lean

/-!
A term for the characters of a string literal, which the kernel evaluates faster than
`String.toList`.
-/

namespace Verif

open Lean Elab Term in
/-- `chars! "ab"` is the list `['a', 'b']`. -/
elab "chars! " s:str : term => return toExpr s.getString.toList

example : chars! "a\nb" = ['a', '\n', 'b'] := rfl

end Verif
