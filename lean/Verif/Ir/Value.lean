import Verif.Ir.Meta

/-!
# Values of ink! arguments

Models the conversions of `crates/ir/src/attrs/meta/value.rs:136-230`.
-/

namespace Verif.Ir

/-- Value of a digit character in the given radix (`char::to_digit` for radix 10 and 16,
as used by `from_str_radix`/`parse`, `crates/ir/src/attrs/meta/value.rs:166,169`). -/
def toDigit (radix : Nat) (c : Char) : Option Nat :=
  let d : Option Nat :=
    if '0' ≤ c ∧ c ≤ '9' then some (c.toNat - '0'.toNat)
    else if 'a' ≤ c ∧ c ≤ 'z' then some (c.toNat - 'a'.toNat + 10)
    else if 'A' ≤ c ∧ c ≤ 'Z' then some (c.toNat - 'A'.toNat + 10)
    else none
  d.bind fun d => if d < radix then some d else none

/-- The digit loop of `from_str_radix` with its checked multiplication and addition
(standard library, as used at `crates/ir/src/attrs/meta/value.rs:166,169`): `none` on an
invalid digit or on overflow over `max`. -/
def fromDigits (radix max : Nat) : Nat → List Char → Option Nat
  | acc, [] => some acc
  | acc, c :: cs =>
    (toDigit radix c).bind fun d =>
      if acc * radix ≤ max then
        if acc * radix + d ≤ max then fromDigits radix max (acc * radix + d) cs else none
      else none

/-- `u16`/`u32` `from_str_radix` (`crates/ir/src/attrs/meta/value.rs:166,169`): an optional
leading `+`, then at least one digit. -/
def fromStrRadix (radix max : Nat) (s : List Char) : Option Nat :=
  match s with
  | [] => none
  | ['+'] => none
  | '+' :: cs => fromDigits radix max 0 cs
  | cs => fromDigits radix max 0 cs

/-- `MetaValue::as_int`, `crates/ir/src/attrs/meta/value.rs:157-174`; `max` is the largest
value of the integer type. -/
def asInt (max : Nat) (kind : ValueTok) (text : String) : Option Nat :=
  if kind = .intNumber then
    match text.toList with
    | '0' :: 'x' :: cs => fromStrRadix 16 max cs
    | cs => fromStrRadix 10 max cs
  else none

/-- Largest `u16` (`crates/ir/src/attrs/meta/value.rs:146-148`). -/
def maxU16 : Nat := 65535

/-- Largest `u32` (`crates/ir/src/attrs/meta/value.rs:151-153`). -/
def maxU32 : Nat := 4294967295

namespace MetaValue

/-- `MetaValue::as_u16`, `crates/ir/src/attrs/meta/value.rs:146-148`. -/
def asU16 (v : MetaValue) : Option Nat := asInt maxU16 v.kind v.text

/-- `MetaValue::as_u32`, `crates/ir/src/attrs/meta/value.rs:151-153`. -/
def asU32 (v : MetaValue) : Option Nat := asInt maxU32 v.kind v.text

/-- `MetaValue::is_wildcard`, `crates/ir/src/attrs/meta/value.rs:136-138`. -/
def isWildcard (v : MetaValue) : Bool := v.kind = .underscore

/-- `MetaValue::is_at_symbol`, `crates/ir/src/attrs/meta/value.rs:145-147`. -/
def isAt (v : MetaValue) : Bool := v.kind = .at

/-- `MetaValue::as_bool`, `crates/ir/src/attrs/meta/value.rs:177-183`. -/
def asBool (v : MetaValue) : Option Bool :=
  match v.kind with
  | .trueKw => some true
  | .falseKw => some false
  | _ => none

/-- `MetaValue::as_string`, `crates/ir/src/attrs/meta/value.rs:186-195`: drop leading
quotes, keep up to the next quote (escapes and raw string prefixes are not interpreted). -/
def asString (v : MetaValue) : Option String :=
  if v.kind = .string then
    some (String.ofList ((v.text.toList.dropWhile (· == '"')).takeWhile (· != '"')))
  else none

/-- Whether the value is a path (`as_path_with_inaccurate_text_range().is_some()`,
`crates/ir/src/attrs/meta/value.rs:198-203`; a `PathExpr` always has a path). -/
def isPath (v : MetaValue) : Bool := v.kind = .path

/-- `MetaValue::as_ident().is_some()`, `crates/ir/src/attrs/meta/value.rs:206-220`: the
first identifier token of the string, parsed as a source file, is the whole string. The
lexer is the parameter `firstIdent`. -/
def isIdent (firstIdent : String → Option String) (v : MetaValue) : Bool :=
  match v.asString with
  | some s => firstIdent s == some s
  | none => false

/-- Drops the optional `0x` prefix of a hexadecimal string (`impl_serde::serialize::from_hex`,
`crates/ir/src/attrs/meta/value.rs:225-228`). -/
def stripHex : List Char → List Char
  | '0' :: 'x' :: cs => cs
  | cs => cs

/-- Number of bytes of a hexadecimal string as read by `impl_serde::serialize::from_hex`
(`crates/ir/src/attrs/meta/value.rs:225-228`): an optional `0x` prefix, then only hex
digits and white space. The white space gives no digits but the buffer is as long as if it did; an odd
number is left-padded. -/
def hexBytes (s : List Char) : Option Nat :=
  if (stripHex s).all (fun c => (toDigit 16 c).isSome || [' ', '\r', '\n', '\t'].contains c) then
    some (((stripHex s).length + 1) / 2)
  else none

/-- `MetaValue::as_hex_32().is_some()`, `crates/ir/src/attrs/meta/value.rs:231-233`. -/
def isHex32 (v : MetaValue) : Bool :=
  match v.asString with
  | some s => hexBytes s.toList == some 32
  | none => false

end MetaValue

end Verif.Ir
