import Verif.Analyzer.Edit
import Verif.Util.Chars

/-!
# Migration of e2e test bodies

Models the visitor of `crates/analyzer/src/analysis/migrate/e2e_test.rs:308-598` and the
traversal of `crates/analyzer/src/analysis/migrate/traversal.rs`.

Expressions are rose trees: every node has its form, its role in the parent, its text and its
ranges, and its children are the direct subexpressions in source order.
-/

namespace Verif.Migrate

open Verif.Analyzer (Edit)

/-- Forms of expressions. Models the match of
`crates/analyzer/src/analysis/migrate/traversal.rs:30-118`. `wrapper` stands for the simple
wrappers of lines 103-115 other than `await` and `return`, `terminal` for line 117 other than
paths and literals. -/
inductive Form where
  | path | literal | methodCall | call | await | ret | closure | block | array | arrayRepeat
  | bin | forLoop | formatArgs | ifElse | index | loop | matchOn | range | record | tuple
  | whileLoop | wrapper | terminal
deriving DecidableEq

/-- The role of a subexpression in its parent expression. In a block the children are the
statements in order (`stmt` for an expression statement, `letInit` and `letElse` for the parts
of a `let` statement, `skipped` for a `let` statement without initializer or an item) and the
tail expression. As used in `crates/analyzer/src/analysis/migrate/traversal.rs:30-141`. -/
inductive Role where
  | receiver | arg | callee | operand | body | stmt | letInit | letElse | skipped | tail
  | elem | initializer | length | lhs | rhs | iterable | condition | template | thenBranch
  | elseBranch | base | index | scrutinee | armGuard | armExpr | start | stop | field | spread
deriving DecidableEq

/-- The data of an expression node. `name` is the method name of a method call with its range,
`argList` the range and the text of the argument list, `builder` the result of
`MessageBuilderCall::parse` (`crates/analyzer/src/analysis/migrate/e2e_test.rs:607-669`): the
range of the call path and the generic arguments to keep; `intZero` tells an integer literal
with value 0. -/
structure ENode where
  form : Form
  role : Role
  text : List Char
  start : Nat
  stop : Nat
  name : Option (String × Nat × Nat) := none
  argList : Option (Nat × Nat × List Char) := none
  builder : Option (Nat × Nat × List Char) := none
  intZero : Bool := false
deriving DecidableEq

/-- An expression. As used in `crates/analyzer/src/analysis/migrate/traversal.rs:30-141`. -/
inductive Expr where
  | mk (node : ENode) (children : List Expr)

/-- The data of the root of an expression.
As used in `crates/analyzer/src/analysis/migrate/traversal.rs:30-141`. -/
def Expr.node : Expr → ENode
  | .mk n _ => n

/-- The subexpressions of an expression.
As used in `crates/analyzer/src/analysis/migrate/traversal.rs:30-141`. -/
def Expr.children : Expr → List Expr
  | .mk _ cs => cs

/-- The e2e traits to import. Models `E2ETrait`,
`crates/analyzer/src/analysis/migrate/e2e_test.rs:86-92`. -/
inductive E2ETrait where
  | contracts | chain
deriving DecidableEq

/-- What the visitor records: text edits and required traits
(`crates/analyzer/src/analysis/migrate/e2e_test.rs:308-311`). -/
inductive Out where
  | edit (e : Edit)
  | need (t : E2ETrait)
deriving DecidableEq

/-- The children that `walk_expr`, `walk_block` and `walk_if_expr` visit,
`crates/analyzer/src/analysis/migrate/traversal.rs:30-141,152-164`. Conditions of `if` and
`while`, the iterable of `for`, match guards, repeat lengths and `let … else` blocks are not
visited. Method calls and calls are handled by the visitor. -/
def walked : Form → Role → Bool
  | .array, .elem => true
  | .arrayRepeat, .initializer => true
  | .bin, .lhs | .bin, .rhs => true
  | .block, .stmt | .block, .letInit | .block, .tail => true
  | .closure, .body => true
  | .forLoop, .body => true
  | .formatArgs, .template | .formatArgs, .arg => true
  | .ifElse, .thenBranch | .ifElse, .elseBranch => true
  | .index, .base | .index, .index => true
  | .loop, .body => true
  | .matchOn, .scrutinee | .matchOn, .armExpr => true
  | .range, .start | .range, .stop => true
  | .record, .field | .record, .spread => true
  | .tuple, .field => true
  | .whileLoop, .body => true
  | .await, .operand | .ret, .operand | .wrapper, .operand => true
  | _, _ => false

/-- `is_client_receiver`, `crates/analyzer/src/analysis/migrate/e2e_test.rs:439-445`. -/
def isClient (cs : List Expr) : Bool :=
  match cs.find? fun c => c.node.role == .receiver with
  | some r => r.node.form == .path && r.node.text == chars! "client"
  | none => false

/-- `arg_list.args()`, `crates/analyzer/src/analysis/migrate/e2e_test.rs:457`. -/
def argsOf (cs : List Expr) : List Expr := cs.filter fun c => c.node.role == .arg

/-- `value_call`, `crates/analyzer/src/analysis/migrate/e2e_test.rs:548-558`. -/
def valueCall (e : Expr) : List Char :=
  if e.node.form == .literal && e.node.intZero then []
  else chars! ".value(" ++ e.node.text ++ [')']

/-- `storage_deposit_limit_call`,
`crates/analyzer/src/analysis/migrate/e2e_test.rs:560-586`. -/
def limitCall (e : Expr) : List Char :=
  if e.node.form == .path && (e.node.text == chars! "None" || e.node.text == chars! "Option::None")
  then []
  else
    let inner : Option (List Char) :=
      if e.node.form == .call then
        match e.children.find? fun c => c.node.role == .callee with
        | some c =>
          if c.node.form == .path &&
              (c.node.text == chars! "Some" || c.node.text == chars! "Option::Some") then
            (argsOf e.children).head?.map fun a => a.node.text
          else none
        | none => none
      else none
    chars! ".storage_deposit_limit(" ++ inner.getD e.node.text ++ [')']

/-- `instantiate` or `call` with its dry run variant,
`crates/analyzer/src/analysis/migrate/e2e_test.rs:460-516`. -/
def submitCall (dry : Bool) (kept : List Expr) (value limit : Expr) : List Char :=
  ['('] ++ List.intercalate [',', ' '] (kept.map fun e => e.node.text) ++ [')'] ++
    valueCall value ++ limitCall limit ++ (if dry then chars! ".dry_run()" else chars! ".submit()")

/-- The match on the method name, `crates/analyzer/src/analysis/migrate/e2e_test.rs:459-546`,
without the edit of `unwrap_dry_run_result` (see `unwrapDry`). -/
def rewrite (name : String) (nameRange : Nat × Nat) (argRange : Nat × Nat) (args : List Expr) :
    List Out :=
  if name = "instantiate" ∨ name = "instantiate_dry_run" then
    match args with
    | [c, s, k, v, l] =>
      [.edit ⟨submitCall (name = "instantiate_dry_run") [c, s, k] v l, argRange.1, argRange.2, none⟩,
        .need .contracts]
    | _ => []
  else if name = "call" ∨ name = "call_dry_run" then
    match args with
    | [s, m, v, l] =>
      [.edit ⟨submitCall (name = "call_dry_run") [s, m] v l, argRange.1, argRange.2, none⟩,
        .need .contracts]
    | _ => []
  else if name = "upload" then
    match args with
    | [c, s, l] =>
      [.edit ⟨['('] ++ List.intercalate [',', ' '] [c.node.text, s.node.text] ++ [')'] ++
          limitCall l ++ chars! ".submit()", argRange.1, argRange.2, none⟩, .need .contracts]
    | _ => []
  else if name = "create_and_fund_account" then
    if args.length = 2 then [.need .chain] else []
  else if name = "balance" then
    if args.length = 1 then
      [.edit ⟨chars! "free_balance", nameRange.1, nameRange.2, none⟩, .need .chain]
    else []
  else if name = "runtime_call" then
    if args.length = 4 then [.need .chain] else []
  else []

/-- The part of `visit_method_call` after the walk,
`crates/analyzer/src/analysis/migrate/e2e_test.rs:450-546`. -/
def rewriteMethod (n : ENode) (cs : List Expr) : List Out :=
  match n.name, n.argList with
  | some (name, r), some (a, b, _) => rewrite name r (a, b) (argsOf cs)
  | _, _ => []

/-- The replacement of the call path of a message builder call,
`crates/analyzer/src/analysis/migrate/e2e_test.rs:329-360`. -/
def builderEdit (b : Nat × Nat × List Char) : Out :=
  .edit ⟨chars! "ink_e2e::create_call_builder" ++ b.2.2, b.1, b.2.1, none⟩

mutual

/-- `last_method_call`, `crates/analyzer/src/analysis/migrate/e2e_test.rs:406-435`. -/
def lastMethodCall : Expr → Option ENode
  | .mk n cs =>
    match n.form with
    | .methodCall => some n
    | .block =>
      if cs.any fun c => c.node.role == .tail then lastMethodTail cs else lastMethodFirst cs
    | .ret => lastMethodOperand cs
    | _ => none

/-- The tail expression of a block,
`crates/analyzer/src/analysis/migrate/e2e_test.rs:424-427`. -/
def lastMethodTail : List Expr → Option ENode
  | [] => none
  | c :: cs => if c.node.role == .tail then lastMethodCall c else lastMethodTail cs

/-- `returned_expr`: the first statement if it is a `return`,
`crates/analyzer/src/analysis/migrate/e2e_test.rs:411-423`. -/
def lastMethodFirst : List Expr → Option ENode
  | [] => none
  | c :: _ => if c.node.role == .stmt && c.node.form == .ret then lastMethodCall c else none

/-- The returned expression, `crates/analyzer/src/analysis/migrate/e2e_test.rs:429-431`. -/
def lastMethodOperand : List Expr → Option ENode
  | [] => none
  | c :: cs => if c.node.role == .operand then lastMethodCall c else lastMethodOperand cs

end

/-- The replacement of `.call(|contract| contract.message(..))` chained to a message builder
call, `crates/analyzer/src/analysis/migrate/e2e_test.rs:362-404`. The code computes it when it
visits the message builder call, which is the receiver of the method call `n`; the model
attaches it to the method call, at the same place of the list of results. -/
def chainedEdit (n : ENode) (cs : List Expr) : List Out :=
  match (cs.find? fun c => c.node.role == .receiver) with
  | some r =>
    if r.node.form == .call && r.node.builder.isSome then
      match n.name, n.argList, argsOf cs with
      | some ("call", a, _), some _, [c] =>
        if c.node.form == .closure then
          match (c.children.find? fun b => b.node.role == .body).bind lastMethodCall with
          | some m =>
            match m.name with
            | some (name, _) =>
              [.edit ⟨name.toList ++ ((m.argList.map fun l => l.2.2).getD ['(', ')']), a, n.stop, none⟩]
            | none => []
          | none => []
        else []
      | _, _, _ => []
    else []
  | none => []

/-- Does the visitor rewrite this call to a dry run?
(`crates/analyzer/src/analysis/migrate/e2e_test.rs:482-484,511-513`) -/
def isDryRun (e : Expr) : Bool :=
  e.node.form == .methodCall &&
    match e.node.name, e.node.argList with
    | some (name, _), some _ =>
      (name == "instantiate_dry_run" && (argsOf e.children).length == 5) ||
        (name == "call_dry_run" && (argsOf e.children).length == 4)
    | _, _ => false

/-- `unwrap_dry_run_result`, `crates/analyzer/src/analysis/migrate/e2e_test.rs:588-596`. The
code computes the edit at the call whose parent is the `await` expression; the model attaches
it to the `await` expression, at the same place of the list of results. -/
def unwrapDry (n : ENode) (cs : List Expr) : List Out :=
  if n.form == .await && cs.any (fun c => c.node.role == .operand && isDryRun c) then
    [.edit ⟨['?'], n.stop, n.stop, none⟩]
  else []

mutual

/-- The visitor: `visit_expr`, `visit_call` and `visit_method_call`,
`crates/analyzer/src/analysis/migrate/e2e_test.rs:323-546`,
`crates/analyzer/src/analysis/migrate/traversal.rs:143-192`. -/
def visit : Expr → List Out
  | .mk n cs =>
    match n.form with
    | .methodCall =>
      let walk := visitAll (· == .receiver) cs ++ chainedEdit n cs ++ visitAll (· == .arg) cs
      (if isClient cs then [] else walk) ++
        match n.name with
        | none => walk
        | some _ => rewriteMethod n cs
    | .call =>
      match n.builder with
      | none => visitAll (· == .callee) cs ++ visitAll (· == .arg) cs
      | some b => [builderEdit b]
    | f => visitAll (walked f) cs ++ unwrapDry n cs

/-- Visits the children with the given roles.
As used in `crates/analyzer/src/analysis/migrate/traversal.rs:143-192`. -/
def visitAll (p : Role → Bool) : List Expr → List Out
  | [] => []
  | c :: cs => (if p c.node.role then visit c else []) ++ visitAll p cs

end

/-- The text edits among the results, `crates/analyzer/src/analysis/migrate/e2e_test.rs:109`. -/
def editsOf (os : List Out) : List Edit :=
  os.filterMap fun
    | .edit e => some e
    | .need _ => none

end Verif.Migrate
