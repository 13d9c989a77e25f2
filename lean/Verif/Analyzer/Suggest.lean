import Verif.Analyzer.Entity

/-!
# Suggestions of ink! arguments and macros

Models the suggestion filters of `crates/analyzer/src/analysis/utils.rs:535-721` and their
three callers: `ink_arg_actions`/`ink_macro_actions`
(`crates/analyzer/src/analysis/actions/item.rs:133-293`), the attribute actions
(`crates/analyzer/src/analysis/actions/attr.rs:11-106`) and `argument_completions`
(`crates/analyzer/src/analysis/completions.rs:283-470`).

An item is seen as the list of its ink! attributes; its enclosing ink! scope is the list of
attribute kinds returned by `ink_attrs_closest_ancestors` (modelled in `Verif/Ir/Tree.lean`).
-/

namespace Verif.Analyzer

open Verif.Ir

/-- The arguments already on the item, `crates/analyzer/src/analysis/utils.rs:541-544`. -/
def existingArgs (attrs : List AttrV) : List ArgKind := attrs.flatMap (·.args)

/-- `remove_duplicate_ink_arg_suggestions`, `crates/analyzer/src/analysis/utils.rs:537-547`. -/
def removeDuplicateArgs (attrs : List AttrV) (s : List ArgKind) : List ArgKind :=
  s.filter fun k => !decide (k ∈ existingArgs attrs)

/-- The ink! 5 `anonymous`/`signature_topic` filter,
`crates/analyzer/src/analysis/utils.rs:581-603`. -/
def removeEventConflict (v : Version) (P : AttrKind) (attrs : List AttrV) (s : List ArgKind) :
    List ArgKind :=
  if v = .v5 ∧ P ∈ [.macro .event, .arg .event, .arg .anonymous, .arg .signatureTopic] then
    let isAnonymous := P == .arg .anonymous || decide (.anonymous ∈ existingArgs attrs)
    let hasSignature := P == .arg .signatureTopic || decide (.signatureTopic ∈ existingArgs attrs)
    if isAnonymous || hasSignature then
      s.filter fun k => (!isAnonymous || k != .signatureTopic) && (!hasSignature || k != .anonymous)
    else s
  else s

/-- `remove_conflicting_ink_arg_suggestions`,
`crates/analyzer/src/analysis/utils.rs:567-605`. -/
def removeConflictingArgs (v : Version) (attrs : List AttrV) (s : List ArgKind) : List ArgKind :=
  match primaryCandidate attrs with
  | some (P, _) =>
    removeEventConflict v P.kind attrs (s.filter fun k => decide (k ∈ validSiblings P.kind v))
  | none => s

/-- `remove_invalid_ink_arg_suggestions_for_parent_item`,
`crates/analyzer/src/analysis/utils.rs:610-623`; `isTraitImpl`: the item is an `impl` block of
a trait. -/
def removeForItem (isTraitImpl : Bool) (s : List ArgKind) : List ArgKind :=
  if isTraitImpl then s.filter fun k => k != .namespace else s

/-- `remove_invalid_ink_arg_suggestions_for_parent_ink_scope`,
`crates/analyzer/src/analysis/utils.rs:626-643`. -/
def removeForScope (v : Version) (scope : List AttrKind) (s : List ArgKind) : List ArgKind :=
  let valid := scope.flatMap fun k => validDescendantArgs k v
  if valid.isEmpty then s else s.filter fun k => decide (k ∈ valid)

/-- `remove_duplicate_conflicting_and_invalid_scope_ink_arg_suggestions`,
`crates/analyzer/src/analysis/utils.rs:648-670`, for an attribute of kind `k` of the item. -/
def removeCombined (v : Version) (attrs : List AttrV) (k : AttrKind) (scope : List AttrKind)
    (s : List ArgKind) : List ArgKind :=
  let s := removeConflictingArgs v attrs (removeDuplicateArgs attrs s)
  match k with
  | .arg _ => removeForScope v scope s
  | .macro _ => s

/-- The arguments suggested by `ink_arg_actions`,
`crates/analyzer/src/analysis/actions/item.rs:179-226`. -/
def itemArgSuggestions (v : Version) (attrs : List AttrV) (kind : ItemKind)
    (isTraitImpl isTraitDefImplMessage : Bool) (scope : List AttrKind) : List ArgKind :=
  if isTraitDefImplMessage then []
  else
    let s := match primaryCandidate attrs with
      | some (P, _) => validSiblings P.kind v
      | none => argsBySyntax kind v
    let s := removeForItem isTraitImpl
      (removeConflictingArgs v attrs (removeDuplicateArgs attrs s))
    match primaryCandidate attrs with
    | some (⟨.macro _, _⟩, _) => s
    | _ => removeForScope v scope s

/-- The arguments suggested by the attribute actions on an attribute of kind `k`,
`crates/analyzer/src/analysis/actions/attr.rs:11-71`. -/
def attrArgSuggestions (v : Version) (attrs : List AttrV) (k : AttrKind)
    (closed isTraitDefImplMessage : Bool) (scope : List AttrKind) : List ArgKind :=
  if closed && !isTraitDefImplMessage then
    removeCombined v attrs k scope (validSiblings k v)
  else []

/-- The list suggested for an unknown attribute on an unknown item,
`crates/analyzer/src/analysis/completions.rs:363-400`. -/
def unknownItemArgs : Version → List ArgKind
  | .v5 => [.anonymous, .constructor, .default, .event, .function, .handleStatus, .impl,
      .message, .namespace, .payable, .selector, .signatureTopic, .storage, .topic]
  | .v4 => [.anonymous, .constructor, .default, .event, .extension, .handleStatus, .impl,
      .message, .namespace, .payable, .selector, .storage, .topic]

/-- The arguments completed at the top level of an attribute of kind `k`,
`crates/analyzer/src/analysis/completions.rs:348-422`. `itemKind` is
`normalized_parent_item_syntax_kind`. -/
def topArgCompletions (v : Version) (attrs : List AttrV) (k : AttrKind)
    (itemKind : Option ItemKind) (scope : List AttrKind) : List ArgKind :=
  let s :=
    if k.isUnknown then
      match itemKind with
      | some i => argsBySyntax i v
      | none => unknownItemArgs v
    else validSiblings k v
  removeCombined v attrs k scope s

/-- The nested arguments completed inside an argument of kind `k`,
`crates/analyzer/src/analysis/completions.rs:331-336`. -/
def nestedArgCompletions (k : ArgKind) : List ArgKind :=
  match ValueKind.ofArg k with
  | .arg k _ => [k]
  | .choice k₁ k₂ _ => [k₁, k₂]
  | _ => []

/-- The arguments that can be nested in the focused argument,
`crates/analyzer/src/analysis/completions.rs:320-345`. -/
def nestedOf (focused : Option (ArgKind × String)) : List ArgKind :=
  match focused with
  | some (f, _) => nestedArgCompletions f
  | none => []

/-- Suggestions before the prefix filter,
`crates/analyzer/src/analysis/completions.rs:345-405`. -/
def allArgCompletions (v : Version) (attrs : List AttrV) (k : AttrKind)
    (itemKind : Option ItemKind) (scope : List AttrKind) (focused : Option (ArgKind × String)) :
    List ArgKind :=
  if (nestedOf focused).isEmpty then topArgCompletions v attrs k itemKind scope
  else nestedOf focused

/-- The arguments completed by `argument_completions`,
`crates/analyzer/src/analysis/completions.rs:314-433`. `focused` is the innermost known
argument around the offset with the text of its name; `pre` the focused prefix (`none` on a
delimiter). -/
def argCompletions (v : Version) (attrs : List AttrV) (k : AttrKind)
    (itemKind : Option ItemKind) (scope : List AttrKind) (focused : Option (ArgKind × String))
    (pre : Option String) : List ArgKind :=
  match pre with
  | none => allArgCompletions v attrs k itemKind scope focused
  | some p => (allArgCompletions v attrs k itemKind scope focused).filter fun a =>
      a.name.startsWith p ||
        (!(nestedOf focused).isEmpty &&
          (match focused with | some (_, n) => n == p | none => false))

/-- `remove_duplicate_ink_macro_suggestions`,
`crates/analyzer/src/analysis/utils.rs:551-563`. -/
def removeDuplicateMacros (attrs : List AttrV) (s : List MacroKind) : List MacroKind :=
  s.filter fun m => !decide (AttrKind.macro m ∈ attrs.map (·.kind))

/-- `remove_invalid_ink_macro_suggestions_for_parent_ink_scope`,
`crates/analyzer/src/analysis/utils.rs:673-692`. -/
def removeMacrosForScope (v : Version) (scope : List AttrKind) (s : List MacroKind) :
    List MacroKind :=
  if scope.isEmpty then s
  else s.filter fun m => decide (m ∈ scope.flatMap fun k => validDescendantMacros k v)

/-- `remove_invalid_ink_macro_suggestions_for_parent_cfg_scope`,
`crates/analyzer/src/analysis/utils.rs:695-721`; the flags say whether some proper ancestor
has a `cfg(test)` attribute, and one with the `e2e-tests` feature. -/
def removeMacrosForCfg (cfgTest cfgE2e : Bool) (s : List MacroKind) : List MacroKind :=
  if s.any fun m => m == .test || m == .e2eTest then
    s.filter fun m => !(m == .test || m == .e2eTest) || (m == .test && cfgTest) ||
      (m == .e2eTest && (cfgTest && cfgE2e))
  else s

/-- The macros suggested by `ink_macro_actions`,
`crates/analyzer/src/analysis/actions/item.rs:133-158`. -/
def itemMacroSuggestions (v : Version) (attrs : List AttrV) (kind : ItemKind)
    (scope : List AttrKind) (cfgTest cfgE2e : Bool) : List MacroKind :=
  if attrs.isEmpty then
    removeMacrosForCfg cfgTest cfgE2e
      (removeMacrosForScope v scope (removeDuplicateMacros attrs (macrosBySyntax kind v)))
  else []

end Verif.Analyzer
