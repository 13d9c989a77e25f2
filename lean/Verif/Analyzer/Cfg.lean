import Verif.Util.Chars
import Verif.Analyzer.Suggest
import Verif.Analyzer.Text

/-!
# Scopes compiled for tests only

Models `is_cfg_test_attr` and `is_cfg_e2e_tests_attr`, `crates/analyzer/src/analysis/utils.rs:724-742`, and
the search for such scopes around an attribute, `crates/analyzer/src/analysis/utils.rs:695-721`.
-/

namespace Verif.Analyzer.Cfg

/-- The parts of the regular expressions at `crates/analyzer/src/analysis/utils.rs:728,739`: a character
class, `\s*` and literal text. -/
inductive Part where
  | oneOf (cs : List Char)
  | spaces
  | lit (w : List Char)
deriving DecidableEq, Repr

/-- The part matches at the start of the text. `\s*` takes as much as it can: what follows it in the two
expressions never starts with white space, so there is nothing to give back. As used in
`crates/analyzer/src/analysis/utils.rs:728-729,739-740`. -/
def eat : List Part → List Char → Bool
  | [], _ => true
  | .oneOf _ :: _, [] => false
  | .oneOf cs :: r, c :: t => cs.contains c && eat r t
  | .spaces :: r, t => eat r (t.dropWhile isWs)
  | .lit w :: r, t => w.isPrefixOf t && eat r (t.drop w.length)

/-- `Regex::is_match`: the expression matches somewhere
(`crates/analyzer/src/analysis/utils.rs:729,740`). -/
def isMatch (r : List Part) : List Char → Bool
  | [] => eat r []
  | c :: t => eat r (c :: t) || isMatch r t

/-- `[(,]\s*test\s*[,)]`, `crates/analyzer/src/analysis/utils.rs:728`. -/
def testRe : List Part :=
  [.oneOf (chars! "(,"), .spaces, .lit (chars! "test"), .spaces, .oneOf (chars! ",)")]

/-- `[(,]\s*feature\s*=\s*"e2e-tests"\s*[,)]`, `crates/analyzer/src/analysis/utils.rs:739`. -/
def e2eRe : List Part :=
  [.oneOf (chars! "(,"), .spaces, .lit (chars! "feature"), .spaces, .lit (chars! "="), .spaces,
    .lit (chars! "\"e2e-tests\""), .spaces, .oneOf (chars! ",)")]

/-- An attribute: the text of its path and that of its token tree.
As used in `crates/analyzer/src/analysis/utils.rs:724-742`. -/
structure Attr where
  path : Option (List Char)
  tree : Option (List Char)
deriving DecidableEq, Repr

/-- `str::trim`, used at `crates/analyzer/src/analysis/utils.rs:726`. -/
def trim (t : List Char) : List Char :=
  ((t.dropWhile isWs).reverse.dropWhile isWs).reverse

/-- `is_cfg_test_attr`, `crates/analyzer/src/analysis/utils.rs:724-731`. -/
def isCfgTest (a : Attr) : Bool :=
  a.path.any (fun p => trim p == chars! "cfg") && a.tree.any (isMatch testRe)

/-- `is_cfg_e2e_tests_attr`, `crates/analyzer/src/analysis/utils.rs:735-742`. -/
def isCfgE2e (a : Attr) : Bool := isCfgTest a && a.tree.any (isMatch e2eRe)

/-- `remove_invalid_ink_macro_suggestions_for_parent_cfg_scope`,
`crates/analyzer/src/analysis/utils.rs:695-721`: `ancestors` are the attributes of each proper ancestor of
the node. -/
def suggestions (ancestors : List (List Attr)) (s : List Verif.Ir.MacroKind) : List Verif.Ir.MacroKind :=
  Verif.Analyzer.removeMacrosForCfg (ancestors.any fun as => as.any isCfgTest)
    (ancestors.any fun as => as.any isCfgE2e) s

end Verif.Analyzer.Cfg
