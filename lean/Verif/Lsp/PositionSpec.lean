import Verif.Lsp.Position

/-!
# What a position means (LSP 3.17, `Position` and `PositionEncodingKind`)
-/

namespace Verif.Lsp.Spec

/-- Number of code units of a character. -/
def units (enc : Encoding) (c : Char) : Nat :=
  match enc with
  | .utf8 => c.utf8Size
  | .utf16 => if c.val < 0x10000 then 1 else 2
  | .utf32 => 1

/-- Number of code units of a text. -/
def unitsOf (enc : Encoding) (cs : List Char) : Nat := (cs.map (units enc)).sum

/-- The part of a text after its last line feed. -/
def lastLine (pre : List Char) : List Char := (pre.reverse.takeWhile (· ≠ '\n')).reverse

/-- The position of the place in a text which has `pre` before it. -/
def posOf (enc : Encoding) (pre : List Char) : Pos :=
  ⟨pre.count '\n', unitsOf enc (lastLine pre)⟩

/-- Order of positions in a document. -/
def Pos.le (a b : Pos) : Prop := a.line < b.line ∨ (a.line = b.line ∧ a.character ≤ b.character)

end Verif.Lsp.Spec
