import Verif.Analyzer.Project
import Verif.Analyzer.SnippetLemmas
import Verif.Analyzer.ArgCheckProps

/-!
# C45: new projects
-/

namespace Verif.Analyzer

set_option maxRecDepth 10000

/-! ## Specification -/

/-- A place for a name in a template. -/
inductive Hole
  | moduleHole
  | structHole
  deriving DecidableEq

/-- A text with places for names: the text up to the first place, and each place with the text
that follows it. -/
structure Template where
  first : List Char
  rest : List (Hole × List Char)

/-- The name put into a place. -/
def Hole.name (m s : List Char) : Hole → List Char
  | .moduleHole => m
  | .structHole => s

/-- The template with its places filled in: every module place by `m` and every struct place by
`s`, the rest of the text as it is. -/
def Template.fill (t : Template) (m s : List Char) : List Char :=
  t.first ++ t.rest.flatMap fun p => p.1.name m s ++ p.2

/-- A word with its first letter in upper case (ASCII letters only). -/
def capitalized : List Char → List Char
  | [] => []
  | c :: w => c.toUpper :: w

/-- A text contains a given text. -/
def Contains (pat t : List Char) : Prop := ∃ a b, t = a ++ pat ++ b

/-- The module name: every `-` becomes `_`. -/
def underscored (name : List Char) : List Char := name.map fun c => if c = '-' then '_' else c

/-- The `contractPlain` template with the places of the names. -/
def contractPlainT : Template where
  first := chars! "#![cfg_attr(not(feature = \"std\"), no_std)]\n\n#[ink::contract]\npub mod "
  rest := [
    (.moduleHole, chars! " {\n    #[ink(storage)]\n    pub struct "),
    (.structHole, chars! " {}\n\n    impl "),
    (.structHole, chars! " {\n        #[ink(constructor)]\n        pub fn new() -> Self {\n            \
      todo!()\n        }\n\n        #[ink(message)]\n        \
      pub fn my_message(&self) {\n            todo!()\n        }\n    \
      }\n\n    #[cfg(test)]\n    mod tests {\n        use super::*;\n\n        \
      #[ink::test]\n        fn it_works() {\n            todo!()\n        \
      }\n    }\n\n    #[cfg(all(test, feature = \"e2e-tests\"))]\n    \
      mod e2e_tests {\n        use super::*;\n\n        \
      type E2EResult<T> = std::result::Result<T, Box<dyn std::error::Error>>;\n\
      \n        #[ink_e2e::test]\n        \
      async fn it_works(mut client: ink_e2e::Client<C, E>) -> E2EResult<()> {\n            \
      todo!();\n\n            Ok(())\n        }\n    }\n}")]

/-- The `contractSnippet` template with the places of the names. -/
def contractSnippetT : Template where
  first := chars! "#![cfg_attr(not(feature = \"std\"), no_std)]\n\n#[ink::contract]\n\
    pub mod ${1:"
  rest := [
    (.moduleHole, chars! "} {\n    #[ink(storage)]\n    pub struct ${2:"),
    (.structHole, chars! "} {\n        $3\n    }\n\n    impl ${2:"),
    (.structHole, chars! "} {\n        #[ink(constructor)]\n        \
      pub fn ${4:new}() -> ${5:Self} {\n            ${6:todo!()}\n        \
      }\n\n        #[ink(message)]\n        \
      pub fn ${7:my_message}(&${8:self}) {\n            ${9:todo!()}\n        \
      }\n    }\n\n    #[cfg(test)]\n    mod tests {\n        \
      use super::*;\n\n        #[ink::test]\n        \
      fn ${10:it_works}() {\n            ${11:todo!()}\n        }\n    \
      }\n\n    #[cfg(all(test, feature = \"e2e-tests\"))]\n    \
      mod e2e_tests {\n        use super::*;\n\n        \
      type E2EResult<T> = std::result::Result<T, Box<dyn std::error::Error>>;\n\
      \n        #[ink_e2e::test]\n        \
      async fn ${12:it_works}(${13:mut client: ink_e2e::Client<C, E>}) -> ${14:E2EResult<()>} {\n            \
      ${15:todo!();}\n\n            Ok(())\n        }\n    }\n}")]

/-- The `contractPlainV5` template with the places of the names. -/
def contractPlainV5T : Template where
  first := chars! "#![cfg_attr(not(feature = \"std\"), no_std)]\n\n#[ink::contract]\npub mod "
  rest := [
    (.moduleHole, chars! " {\n    #[ink(storage)]\n    pub struct "),
    (.structHole, chars! " {}\n\n    impl "),
    (.structHole, chars! " {\n        #[ink(constructor)]\n        pub fn new() -> Self {\n            \
      todo!()\n        }\n\n        #[ink(message)]\n        \
      pub fn my_message(&self) {\n            todo!()\n        }\n    \
      }\n\n    #[cfg(test)]\n    mod tests {\n        use super::*;\n\n        \
      #[ink::test]\n        fn it_works() {\n            todo!()\n        \
      }\n    }\n\n    #[cfg(all(test, feature = \"e2e-tests\"))]\n    \
      mod e2e_tests {\n        use super::*;\n\n        \
      type E2EResult<T> = std::result::Result<T, Box<dyn std::error::Error>>;\n\
      \n        #[ink_e2e::test]\n        \
      async fn it_works<Client: E2EBackend>(mut client: Client) -> E2EResult<()> {\n            \
      todo!();\n\n            Ok(())\n        }\n    }\n}")]

/-- The `contractSnippetV5` template with the places of the names. -/
def contractSnippetV5T : Template where
  first := chars! "#![cfg_attr(not(feature = \"std\"), no_std)]\n\n#[ink::contract]\n\
    pub mod ${1:"
  rest := [
    (.moduleHole, chars! "} {\n    #[ink(storage)]\n    pub struct ${2:"),
    (.structHole, chars! "} {\n        $3\n    }\n\n    impl ${2:"),
    (.structHole, chars! "} {\n        #[ink(constructor)]\n        \
      pub fn ${4:new}() -> ${5:Self} {\n            ${6:todo!()}\n        \
      }\n\n        #[ink(message)]\n        \
      pub fn ${7:my_message}(&${8:self}) {\n            ${9:todo!()}\n        \
      }\n    }\n\n    #[cfg(test)]\n    mod tests {\n        \
      use super::*;\n\n        #[ink::test]\n        \
      fn ${10:it_works}() {\n            ${11:todo!()}\n        }\n    \
      }\n\n    #[cfg(all(test, feature = \"e2e-tests\"))]\n    \
      mod e2e_tests {\n        use super::*;\n\n        \
      type E2EResult<T> = std::result::Result<T, Box<dyn std::error::Error>>;\n\
      \n        #[ink_e2e::test]\n        \
      async fn ${12:it_works}<${13:Client: E2EBackend}>(${14:mut client: Client}) -> ${15:E2EResult<()>} {\n            \
      ${16:todo!();}\n\n            Ok(())\n        }\n    }\n}")]

/-- The `cargoPlain` template with the places of the names. -/
def cargoPlainT : Template where
  first := chars! "[package]\nname = \""
  rest := [
    (.moduleHole, chars! "\"\nversion = \"0.1.0\"\nauthors = [\"[your_name] <[your_email]>\"]\n\
      edition = \"2021\"\n\n[dependencies]\n\
      ink = { version = \"4.3.0\", default-features = false }\n\n\
      scale = { package = \"parity-scale-codec\", version = \"3\", default-features = false, features = [\"derive\"] }\n\
      scale-info = { version = \"2.6\", default-features = false, features = [\"derive\"], optional = true }\n\
      \n[dev-dependencies]\nink_e2e = \"4.3.0\"\n\n[lib]\npath = \"lib.rs\"\n\n\
      [features]\ndefault = [\"std\"]\nstd = [\n    \"ink/std\",\n    \"scale/std\",\n    \
      \"scale-info/std\",\n]\nink-as-dependency = []\ne2e-tests = []")]

/-- The `cargoSnippet` template with the places of the names. -/
def cargoSnippetT : Template where
  first := chars! "[package]\nname = \"${1:"
  rest := [
    (.moduleHole, chars! "}\"\nversion = \"0.1.0\"\n\
      authors = [\"${2:[your_name]} <${3:[your_email]}>\"]\nedition = \"2021\"\n\n\
      [dependencies]\nink = { version = \"4.3.0\", default-features = false }\n\n\
      scale = { package = \"parity-scale-codec\", version = \"3\", default-features = false, features = [\"derive\"] }\n\
      scale-info = { version = \"2.6\", default-features = false, features = [\"derive\"], optional = true }\n\
      \n[dev-dependencies]\nink_e2e = \"4.3.0\"\n\n[lib]\npath = \"lib.rs\"\n\n\
      [features]\ndefault = [\"std\"]\nstd = [\n    \"ink/std\",\n    \"scale/std\",\n    \
      \"scale-info/std\",\n]\nink-as-dependency = []\ne2e-tests = []")]

/-- The `cargoPlainV5` template with the places of the names. -/
def cargoPlainV5T : Template where
  first := chars! "[package]\nname = \""
  rest := [
    (.moduleHole, chars! "\"\nversion = \"0.1.0\"\nauthors = [\"[your_name] <[your_email]>\"]\n\
      edition = \"2021\"\n\n[dependencies]\n\
      ink = { version = \"5.0.0\", default-features = false }\n\n\
      [dev-dependencies]\nink_e2e = { version = \"5.0.0\" }\n\n[lib]\n\
      path = \"lib.rs\"\n\n[features]\ndefault = [\"std\"]\nstd = [\n    \"ink/std\",\n\
      ]\nink-as-dependency = []\ne2e-tests = []")]

/-- The `cargoSnippetV5` template with the places of the names. -/
def cargoSnippetV5T : Template where
  first := chars! "[package]\nname = \"${1:"
  rest := [
    (.moduleHole, chars! "}\"\nversion = \"0.1.0\"\n\
      authors = [\"${2:[your_name]} <${3:[your_email]}>\"]\nedition = \"2021\"\n\n\
      [dependencies]\nink = { version = \"5.0.0\", default-features = false }\n\n\
      [dev-dependencies]\nink_e2e = { version = \"5.0.0\" }\n\n[lib]\n\
      path = \"lib.rs\"\n\n[features]\ndefault = [\"std\"]\nstd = [\n    \"ink/std\",\n\
      ]\nink-as-dependency = []\ne2e-tests = []")]

/-- The library template for a version. -/
def libPlainT (v5 : Bool) : Template := if v5 then contractPlainV5T else contractPlainT

/-- The library snippet template for a version. -/
def libSnippetT (v5 : Bool) : Template := if v5 then contractSnippetV5T else contractSnippetT

/-- The manifest template for a version. -/
def tomlPlainT (v5 : Bool) : Template := if v5 then cargoPlainV5T else cargoPlainT

/-- The manifest snippet template for a version. -/
def tomlSnippetT (v5 : Bool) : Template := if v5 then cargoSnippetV5T else cargoSnippetT

/-! ## Replacement and separators -/

theorem prefix_sep {pat x y : List Char} {c : Char} (hc : c ∉ pat) :
    pat.isPrefixOf (x ++ c :: y) = pat.isPrefixOf x := by
  rw [Bool.eq_iff_iff, List.isPrefixOf_iff_prefix, List.isPrefixOf_iff_prefix]
  constructor
  · intro h
    induction pat generalizing x with
    | nil => exact List.nil_prefix
    | cons p pat ih =>
      cases x with
      | nil =>
        rw [List.nil_append, List.cons_prefix_cons] at h
        exact absurd (by simp [h.1]) hc
      | cons d x =>
        rw [List.cons_append, List.cons_prefix_cons] at h
        rw [List.cons_prefix_cons]
        exact ⟨h.1, ih (fun h' => hc (by simp [h'])) h.2⟩
  · exact fun h => h.trans (List.prefix_append _ _)

theorem replaceAll_sep (pat rep x y : List Char) (c : Char) (hc : c ∉ pat) (hp : pat ≠ []) :
    replaceAll pat rep (x ++ c :: y) = replaceAll pat rep x ++ c :: replaceAll pat rep y := by
  generalize hn : x.length = n
  induction n using Nat.strongRecOn generalizing x with
  | _ n ih =>
    cases hx : pat.isPrefixOf x with
    | true =>
      obtain ⟨r, hr⟩ := List.isPrefixOf_iff_prefix.1 hx
      subst hr
      rw [List.append_assoc, replaceAll_match pat rep _ hp, replaceAll_match pat rep _ hp,
        ih r.length (by
          have : 0 < pat.length := List.length_pos_iff.2 hp
          simp only [List.length_append] at hn
          omega) r rfl, List.append_assoc]
    | false =>
      cases x with
      | nil =>
        rw [List.nil_append, replaceAll_step, replaceAll_nil, List.nil_append]
        have := prefix_sep (x := []) (y := y) hc
        rw [List.nil_append] at this
        rw [this, hx]
      | cons d x =>
        have h1 : pat.isPrefixOf (d :: (x ++ c :: y)) = false := by
          have := prefix_sep (x := d :: x) (y := y) hc
          rw [List.cons_append] at this
          rw [this, hx]
        rw [List.cons_append, replaceAll_step pat rep d _ h1, replaceAll_step pat rep d x hx,
          ih x.length (by simp only [List.length_cons] at hn; omega) x rfl, List.cons_append]

theorem replaceAll_append_head (pat rep x y : List Char) (hp : pat ≠ [])
    (hy : y.head?.all (fun c => !pat.contains c) = true) :
    replaceAll pat rep (x ++ y) = replaceAll pat rep x ++ replaceAll pat rep y := by
  cases y with
  | nil => simp [replaceAll_nil]
  | cons c y =>
    have hc : c ∉ pat := by simpa using hy
    rw [replaceAll_sep pat rep x y c hc hp]
    have := replaceAll_sep pat rep [] y c hc hp
    rw [List.nil_append, replaceAll_nil, List.nil_append] at this
    rw [this]

theorem replaceAll_append_last (pat rep x y : List Char) (hp : pat ≠ [])
    (hx : x.getLast?.all (fun c => !pat.contains c) = true) :
    replaceAll pat rep (x ++ y) = replaceAll pat rep x ++ replaceAll pat rep y := by
  rcases List.eq_nil_or_concat x with rfl | ⟨x', c, rfl⟩
  · simp [replaceAll_nil]
  · rw [List.concat_eq_append] at hx ⊢
    have hc : c ∉ pat := by simpa using hx
    have h1 := replaceAll_sep pat rep x' [] c hc hp
    rw [List.append_assoc, List.singleton_append, replaceAll_sep pat rep x' y c hc hp, h1,
      replaceAll_nil]
    simp

/-- The text pieces of a template are not touched by a replacement and end it on both sides. -/
def safeText (pat : List Char) (t : List Char) : Bool :=
  t.head?.all (fun c => !pat.contains c) && t.getLast?.all (fun c => !pat.contains c) &&
    !t.isEmpty && (findPat pat t).isNone

/-- All text pieces are safe. -/
def Template.safe (pat : List Char) (t : Template) : Bool :=
  safeText pat t.first && t.rest.all fun p => safeText pat p.2

theorem replaceAll_fill (pat rep : List Char) (hp : pat ≠ []) (t : Template)
    (ht : t.safe pat = true) (m s : List Char) :
    replaceAll pat rep (t.fill m s) =
      t.fill (replaceAll pat rep m) (replaceAll pat rep s) := by
  unfold Template.safe at ht
  rw [Bool.and_eq_true, List.all_eq_true] at ht
  have hsafe : ∀ x, safeText pat x = true →
      (x.head?.all (fun c => !pat.contains c) = true) ∧
      (x.getLast?.all (fun c => !pat.contains c) = true) ∧ x ≠ [] ∧ replaceAll pat rep x = x := by
    intro x hx
    unfold safeText at hx
    simp only [Bool.and_eq_true] at hx
    refine ⟨hx.1.1.1, hx.1.1.2, ?_, findPat_none _ _ _ (Option.isNone_iff_eq_none.1 hx.2)⟩
    intro h
    rw [h] at hx
    simp at hx
  unfold Template.fill
  obtain ⟨_, h2, _, h4⟩ := hsafe _ ht.1
  rw [replaceAll_append_last _ _ _ _ hp h2, h4]
  congr 1
  have hrest := ht.2
  generalize t.rest = l at hrest
  induction l with
  | nil => simp [replaceAll_nil]
  | cons p l ih =>
    obtain ⟨g1, g2, g3, g4⟩ := hsafe _ (hrest p (by simp))
    rw [List.flatMap_cons, List.flatMap_cons, List.append_assoc,
      replaceAll_append_head _ _ _ _ hp (by
        cases hq : p.2 with
        | nil => exact absurd hq g3
        | cons c q => rw [hq] at g1; simpa using g1),
      replaceAll_append_last _ _ _ _ hp g2, g4, ih (fun q hq => hrest q (by simp [hq])),
      List.append_assoc]
    congr 1
    cases p.1 <;> rfl

theorem fillLib_template (t : Template) (c : List Char)
    (hc : c = t.fill (chars! "my_contract") (chars! "MyContract"))
    (h1 : t.safe (chars! "my_contract") = true) (h2 : t.safe (chars! "MyContract") = true)
    (m s : List Char) :
    fillLib c m s = t.fill (replaceAll (chars! "MyContract") s m) s := by
  unfold fillLib
  rw [hc, replaceAll_fill _ _ (by decide) t h1, replaceAll_fill _ _ (by decide) t h2]
  have e1 : replaceAll (chars! "my_contract") m (chars! "my_contract") = m := by
    have := replaceAll_match (chars! "my_contract") m [] (by decide)
    rwa [List.append_nil, replaceAll_nil, List.append_nil] at this
  have e2 : replaceAll (chars! "my_contract") m (chars! "MyContract") = (chars! "MyContract") :=
    findPat_none _ _ _ (by decide)
  have e3 : replaceAll (chars! "MyContract") s (chars! "MyContract") = s := by
    have := replaceAll_match (chars! "MyContract") s [] (by decide)
    rwa [List.append_nil, replaceAll_nil, List.append_nil] at this
  rw [e1, e2, e3]

theorem fillCargo_template (t : Template) (c : List Char)
    (hc : c = t.fill (chars! "my_contract") []) (h1 : t.safe (chars! "my_contract") = true)
    (m : List Char) : fillCargo c m = t.fill m [] := by
  unfold fillCargo
  rw [hc, replaceAll_fill _ _ (by decide) t h1]
  have e1 : replaceAll (chars! "my_contract") m (chars! "my_contract") = m := by
    have := replaceAll_match (chars! "my_contract") m [] (by decide)
    rwa [List.append_nil, replaceAll_nil, List.append_nil] at this
  rw [e1, replaceAll_nil]

/-- The checks of one library template. -/
def libOk (t : Template) (c : List Char) : Bool :=
  c == t.fill (chars! "my_contract") (chars! "MyContract") &&
    t.safe (chars! "my_contract") && t.safe (chars! "MyContract")

/-- The checks of one manifest template. -/
def cargoOk (t : Template) (c : List Char) : Bool :=
  c == t.fill (chars! "my_contract") [] && t.safe (chars! "my_contract")

theorem fillLib_of_ok (t : Template) (c : List Char) (h : libOk t c = true) (m s : List Char) :
    fillLib c m s = t.fill (replaceAll (chars! "MyContract") s m) s := by
  unfold libOk at h
  simp only [Bool.and_eq_true, beq_iff_eq] at h
  exact fillLib_template t c h.1.1 h.1.2 h.2 m s

theorem fillCargo_of_ok (t : Template) (c : List Char) (h : cargoOk t c = true) (m : List Char) :
    fillCargo c m = t.fill m [] := by
  unfold cargoOk at h
  simp only [Bool.and_eq_true, beq_iff_eq] at h
  exact fillCargo_template t c h.1 h.2 m

theorem lib_ok : libOk contractPlainT contractPlain = true ∧
    libOk contractSnippetT contractSnippet = true ∧
    libOk contractPlainV5T contractPlainV5 = true ∧
    libOk contractSnippetV5T contractSnippetV5 = true := by decide +kernel

theorem cargo_ok : cargoOk cargoPlainT cargoPlain = true ∧
    cargoOk cargoSnippetT cargoSnippet = true ∧
    cargoOk cargoPlainV5T cargoPlainV5 = true ∧
    cargoOk cargoSnippetV5T cargoSnippetV5 = true := by decide +kernel

theorem moduleName_eq (name : List Char) : moduleName name = underscored name := by
  unfold moduleName underscored
  induction name with
  | nil => rfl
  | cons c name ih =>
    by_cases hc : c = '-'
    · subst hc
      rw [show '-' :: name = ['-'] ++ name from rfl, replaceAll_match _ _ _ (by decide), ih]
      rfl
    · rw [replaceAll_step _ _ _ _ (by
        rw [Bool.eq_false_iff]
        intro h
        rw [List.isPrefixOf_iff_prefix, List.cons_prefix_cons] at h
        exact hc h.1.symm), ih, List.map_cons, if_neg hc]

/-! ## Theorems -/

/-- A name is rejected as a package name iff it is empty or has a character that is neither
alphanumeric nor `_` nor `-`; as a contract name iff it does not start with a letter otherwise;
and accepted in all other cases. -/
theorem C45_validation (isAlphabetic isNumeric : Char → Bool) (name : List Char) (v5 : Bool) :
    (newProject isAlphabetic isNumeric name v5 = .error .packageName ↔ name = [] ∨
      ∃ c ∈ name, isAlphabetic c = false ∧ isNumeric c = false ∧ c ≠ '_' ∧ c ≠ '-') ∧
    ((∃ p, newProject isAlphabetic isNumeric name v5 = .ok p) ↔
      (∀ c ∈ name, isAlphabetic c = true ∨ isNumeric c = true ∨ c = '_' ∨ c = '-') ∧
      ∃ c rest, name = c :: rest ∧ isAlphabetic c = true) := by
  have hbad : (name.isEmpty || !name.all (fun c => isAlphabetic c || isNumeric c || c == '_' ||
      c == '-')) = true ↔ name = [] ∨
      ∃ c ∈ name, isAlphabetic c = false ∧ isNumeric c = false ∧ c ≠ '_' ∧ c ≠ '-' := by
    simp only [Bool.or_eq_true, List.isEmpty_iff, Bool.not_eq_true', List.all_eq_false,
      beq_iff_eq, not_or, Bool.not_eq_true, ne_eq, and_assoc]
  unfold newProject
  by_cases h : (name.isEmpty || !name.all (fun c => isAlphabetic c || isNumeric c || c == '_' ||
      c == '-')) = true
  · rw [if_pos h]
    refine ⟨⟨fun _ => hbad.1 h, fun _ => rfl⟩, ⟨fun ⟨p, hp⟩ => (nomatch hp), ?_⟩⟩
    rintro ⟨h1, c, r, h2, _⟩
    rcases hbad.1 h with h | ⟨d, hd, g1, g2, g3, g4⟩
    · rw [h] at h2; cases h2
    · rcases h1 d hd with g | g | g | g
      · rw [g] at g1; cases g1
      · rw [g] at g2; cases g2
      · exact absurd g g3
      · exact absurd g g4
  · rw [if_neg h]
    have hall : ∀ c ∈ name, isAlphabetic c = true ∨ isNumeric c = true ∨ c = '_' ∨ c = '-' := by
      intro c hc
      refine Classical.byContradiction fun hn => h (hbad.2 (.inr ⟨c, hc, ?_⟩))
      simp only [not_or, Bool.not_eq_true] at hn
      exact hn
    by_cases h2 : (!(name.head?.any isAlphabetic)) = true
    · rw [if_pos h2]
      refine ⟨⟨fun h' => (nomatch h'), fun h' => absurd (hbad.2 h') h⟩,
        ⟨fun ⟨p, hp⟩ => (nomatch hp), ?_⟩⟩
      rintro ⟨_, c, r, rfl, hc⟩
      simp [hc] at h2
    · rw [if_neg h2]
      refine ⟨⟨fun h' => (nomatch h'), fun h' => absurd (hbad.2 h') h⟩,
        ⟨fun _ => ⟨hall, ?_⟩, fun _ => ⟨_, rfl⟩⟩⟩
      cases name with
      | nil => simp at h2
      | cons c r => exact ⟨c, r, rfl, by simpa using h2⟩

/-- Pascal case: the words between underscores, each with an upper case first letter, without the
underscores. -/
theorem C45_pascal (words : List (List Char)) (hw : ∀ w ∈ words, '_' ∉ w) :
    pascalCase (['_'].intercalate words) = words.flatMap capitalized := by
  have hfalse : ∀ (w r : List Char), '_' ∉ w → pascalGo false (w ++ r) = w ++ pascalGo false r := by
    intro w
    induction w with
    | nil => intro r _; rfl
    | cons c w ih =>
      intro r hw
      simp only [List.mem_cons, not_or] at hw
      rw [List.cons_append, pascalGo, if_neg (fun h => hw.1 h.symm), if_neg (by simp), ih r hw.2]
      rfl
  have hword : ∀ (w r : List Char), '_' ∉ w →
      pascalGo true (w ++ '_' :: r) = capitalized w ++ pascalGo true r := by
    intro w r hw
    cases w with
    | nil => simp [pascalGo, capitalized]
    | cons c w =>
      simp only [List.mem_cons, not_or] at hw
      rw [List.cons_append, pascalGo, if_neg (fun h => hw.1 h.symm), if_pos rfl, hfalse w _ hw.2]
      simp [pascalGo, capitalized, asciiUpper]
  have hlast : ∀ w : List Char, '_' ∉ w → pascalGo true w = capitalized w := by
    intro w hw
    cases w with
    | nil => rfl
    | cons c w =>
      simp only [List.mem_cons, not_or] at hw
      have := hfalse w [] hw.2
      rw [List.append_nil] at this
      rw [pascalGo, if_neg (fun h => hw.1 h.symm), if_pos rfl, this]
      simp [pascalGo, capitalized, asciiUpper]
  unfold pascalCase
  induction words with
  | nil => rfl
  | cons w words ih =>
    cases words with
    | nil =>
      have : ['_'].intercalate [w] = w := by simp [List.intercalate, List.intersperse]
      rw [this, hlast w (hw w (by simp))]
      simp
    | cons w2 words =>
      have : ['_'].intercalate (w :: w2 :: words) =
          w ++ '_' :: ['_'].intercalate (w2 :: words) := by
        simp [List.intercalate, List.intersperse]
      rw [this, hword w _ (hw w (by simp)), ih (fun x hx => hw x (by simp [hx]))]
      rfl

/-- Every name consists of words between underscores. -/
theorem C45_words (name : List Char) :
    ∃ words : List (List Char), (∀ w ∈ words, '_' ∉ w) ∧ words ≠ [] ∧
      name = ['_'].intercalate words := by
  induction name with
  | nil => exact ⟨[[]], by simp, by simp, rfl⟩
  | cons c name ih =>
    obtain ⟨words, h1, h2, rfl⟩ := ih
    cases words with
    | nil => exact absurd rfl h2
    | cons w words =>
      by_cases hc : c = '_'
      · subst hc
        refine ⟨[] :: w :: words, ?_, by simp, ?_⟩
        · intro x hx
          rcases List.mem_cons.1 hx with rfl | hx
          · simp
          · exact h1 x hx
        · simp [List.intercalate, List.intersperse]
      · refine ⟨(c :: w) :: words, ?_, by simp, ?_⟩
        · intro x hx
          rcases List.mem_cons.1 hx with rfl | hx
          · simp only [List.mem_cons, not_or]
            exact ⟨fun h => hc h.symm, h1 w (by simp)⟩
          · exact h1 x (by simp [hx])
        · cases words <;> simp [List.intercalate, List.intersperse]

/-- The manifest has the name itself in every place, and the library the Pascal case of the module
name in every struct place. In the module places it has the module name, except that an
occurrence of `MyContract` within it is replaced too. -/
theorem C45_exact (isAlphabetic isNumeric : Char → Bool) (name : List Char) (v5 : Bool)
    (p : Project) (h : newProject isAlphabetic isNumeric name v5 = .ok p) :
    let s := pascalCase (underscored name)
    let m := replaceAll (chars! "MyContract") s (underscored name)
    p.libPlain = (libPlainT v5).fill m s ∧ p.libSnippet = (libSnippetT v5).fill m s ∧
    p.cargoPlain = (tomlPlainT v5).fill name [] ∧ p.cargoSnippet = (tomlSnippetT v5).fill name [] := by
  unfold newProject at h
  split at h
  · cases h
  · split at h
    · cases h
    · simp only [Except.ok.injEq] at h
      subst h
      rw [moduleName_eq]
      obtain ⟨l1, l2, l3, l4⟩ := lib_ok
      obtain ⟨c1, c2, c3, c4⟩ := cargo_ok
      cases v5
      · exact ⟨fillLib_of_ok _ _ l1 _ _, fillLib_of_ok _ _ l2 _ _, fillCargo_of_ok _ _ c1 _,
          fillCargo_of_ok _ _ c2 _⟩
      · exact ⟨fillLib_of_ok _ _ l3 _ _, fillLib_of_ok _ _ l4 _ _, fillCargo_of_ok _ _ c3 _,
          fillCargo_of_ok _ _ c4 _⟩

/-- The names are substituted consistently if the module name does not contain `MyContract`.

Missing for the full claim: otherwise the module name is changed by the second replacement
(`C45_negation`). -/
theorem C45_consistent_partial (isAlphabetic isNumeric : Char → Bool) (name : List Char)
    (v5 : Bool) (p : Project) (h : newProject isAlphabetic isNumeric name v5 = .ok p)
    (hno : ¬ Contains (chars! "MyContract") (underscored name)) :
    p.libPlain = (libPlainT v5).fill (underscored name) (pascalCase (underscored name)) ∧
    p.libSnippet = (libSnippetT v5).fill (underscored name) (pascalCase (underscored name)) ∧
    p.cargoPlain = (tomlPlainT v5).fill name [] ∧
    p.cargoSnippet = (tomlSnippetT v5).fill name [] := by
  have hf : findPat (chars! "MyContract") (underscored name) = none := by
    cases hf : findPat (chars! "MyContract") (underscored name) with
    | none => rfl
    | some r =>
      have := (findPat_some (chars! "MyContract") [] _ r.1 r.2 (by decide) hf).1
      exact absurd ⟨r.1, r.2, by rw [List.append_assoc]; exact this⟩ hno
  have := C45_exact isAlphabetic isNumeric name v5 p h
  simp only [findPat_none _ _ _ hf] at this
  exact this

/-- The full claim fails: the module of the project `xMyContract` is named `xXMyContract`. -/
theorem C45_negation :
    let p := newProject Char.isAlpha Char.isDigit "xMyContract".toList true
    p.toOption.map (·.libPlain) =
      some ((libPlainT true).fill "xXMyContract".toList "XMyContract".toList) ∧
    p.toOption.map (·.libPlain) ≠
      some ((libPlainT true).fill "xMyContract".toList "XMyContract".toList) := by
  decide +kernel

/-! Non-vacuity. -/

example : newProject Char.isAlpha Char.isDigit "1st".toList false = .error .contractName ∧
    newProject Char.isAlpha Char.isDigit "a b".toList false = .error .packageName ∧
    (newProject Char.isAlpha Char.isDigit "flip-per".toList false).toOption.isSome = true ∧
    pascalCase (underscored "flip-per".toList) = "FlipPer".toList :=
  ⟨rfl, rfl, by decide +kernel, by decide +kernel⟩

example : ¬ Contains (chars! "MyContract") (underscored "flip-per".toList) := by
  rintro ⟨a, b, h⟩
  have := congrArg List.length h
  simp [underscored] at this
  omega

end Verif.Analyzer
