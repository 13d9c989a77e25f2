import Verif.Analyzer.Overlap
import Verif.Analyzer.Insert
import Verif.Util.Chars

/-!
# The quickfixes of the wildcard complement rule

Models the diagnostics and quickfixes of `validate_wildcard_complement_selector`
(`crates/analyzer/src/analysis/diagnostics/contract.rs:462-578`). The reports themselves are in
`Verif.Analyzer.Overlap`.
-/

namespace Verif.Analyzer.Complement
open Verif.Ir Verif.Analyzer.Insert

/-- What a quickfix does: it adds a message with an action of its own, removes a message, replaces a
selector argument, adds one at a place, or removes one
(`crates/analyzer/src/analysis/diagnostics/contract.rs:467-475,481-489,512,524-552,575`). -/
inductive Fix where
  | addMessage (a : Action)
  | removeMessage (m : CallItem)
  | replaceSelector (m : CallItem) (sel : Arg)
  | addSelector (m : CallItem) (p : Place)
  | removeSelector (m : CallItem) (sel : Arg)

/-- What the quickfixes depend on: `handler` is the result of `add_message_selector_to_contract`
(`crates/analyzer/src/analysis/actions/entity.rs:242-265`, its text is in `Verif.Analyzer.Templates`),
`place` that of `ink_arg_insert_offset_and_affixes` for the attribute of a message
(`crates/analyzer/src/analysis/utils.rs:1006-1122`, modelled in `Verif.Analyzer.Insert`), if it has
one. As used in `crates/analyzer/src/analysis/diagnostics/contract.rs:467-475,537-552`. -/
structure Context where
  handler : Option Action
  place : CallItem → Option Place

/-- The quickfix for a message without the complement selector,
`crates/analyzer/src/analysis/diagnostics/contract.rs:523-552`. -/
def messageFix (c : Context) (complementExists : Bool) (m : CallItem) : Option Fix :=
  if complementExists then some (.removeMessage m)
  else
    match argByKind m.call.attrs .selector with
    | some sel => some (.replaceSelector m sel)
    | none => (c.place m).map fun p => .addSelector m p

/-- The quickfix of a report,
`crates/analyzer/src/analysis/diagnostics/contract.rs:467-475,512,523-552,575`. -/
def fix (c : Context) (messages : List CallItem) : ComplementDiag → Option Fix
  | .noOther => c.handler.map .addMessage
  | .second m _ => some (.removeMessage m)
  | .notComplement m => messageFix c (messages.any hasComplement) m
  | .noWildcard m sel => some (.removeSelector m sel)

/-- `decl_range`, `crates/analyzer/src/analysis/diagnostics/contract.rs:515-522`. -/
def declaration (m : CallItem) : Nat × Nat := m.declRange.getD m.nodeRange

/-- The action of a quickfix, `crates/analyzer/src/analysis/diagnostics/contract.rs:481-489,512,524-552`
and `remove_item` (`crates/analyzer/src/analysis/actions.rs:74-81`). -/
def Fix.action (r : Ranges) : Fix → Action
  | .addMessage a => a
  | .removeMessage m => ⟨"Remove item.", .quickFix, m.nodeRange, [⟨[], m.nodeRange.1, m.nodeRange.2, none⟩]⟩
  | .replaceSelector _ sel => ⟨"Replace with wildcard complement selector.", .quickFix, r.arg sel,
      [⟨chars! "selector = @", (r.arg sel).1, (r.arg sel).2, none⟩]⟩
  | .addSelector m p => ⟨"Add wildcard complement selector.", .quickFix, declaration m,
      [⟨(p.insertion "selector = @").2.toList, (p.insertion "selector = @").1,
        (p.insertion "selector = @").1, none⟩]⟩
  | .removeSelector _ sel => ⟨"Remove wildcard complement selector.", .quickFix, r.removal sel,
      [⟨[], (r.removal sel).1, (r.removal sel).2, none⟩]⟩

/-- The range of a report, where `contract` is the range of the declaration of the contract,
`crates/analyzer/src/analysis/diagnostics/contract.rs:461,510,558-564,573`. -/
def range (r : Ranges) (contract : Nat × Nat) : ComplementDiag → Nat × Nat
  | .noOther => contract
  | .second _ sel | .noWildcard _ sel => r.arg sel
  | .notComplement m => ((argByKind m.call.attrs .selector).map r.arg).getD (declaration m)

/-- The message of a report,
`crates/analyzer/src/analysis/diagnostics/contract.rs:463-465,507-509,554-557,570-572`. -/
def text : ComplementDiag → String
  | .noOther => "An ink! contract that contains a wildcard (`_`) selector must also define exactly one \
      other message annotated with a wildcard complement (`@`) selector."
  | .second _ _ => "At most one wildcard complement (`@`) selector can be defined in an ink! contract \
      that contains a wildcard (`_`) selector."
  | .notComplement _ => "Exactly one other message that must be annotated with a wildcard complement \
      (`@`) selector can be defined in an ink! contract that contains a wildcard (`_`) selector."
  | .noWildcard _ _ => "The wildcard complement (`@`) selector can only used if another message with a \
      wildcard (`_`) is defined."

/-- The diagnostics of `validate_wildcard_complement_selector`,
`crates/analyzer/src/analysis/diagnostics/contract.rs:425-579`. -/
def diagnostics (c : Context) (r : Ranges) (contract : Nat × Nat) (messages : List CallItem) : List Diag :=
  (wildcardComplement messages).map fun d =>
    ⟨text d, range r contract d, .error, (fix c messages d).map fun f => [f.action r]⟩

end Verif.Analyzer.Complement
