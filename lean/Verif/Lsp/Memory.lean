import Verif.Basic

/-!
# Model of the document store: `crates/lsp-server/src/memory.rs`
-/

namespace Verif.Lsp

/-- A text document. Models `Document` in `crates/lsp-server/src/memory.rs:57-64`
(the version is an `i32` in the code, an `Int` here; it is only stored and echoed). -/
structure Doc where
  content : String
  version : Int
  deriving DecidableEq, Repr

/-- The document store. Models `Memory` in `crates/lsp-server/src/memory.rs:5-8`.
The `HashMap` is a lookup function, the `HashSet` of changed ids is a list without
duplicates whose order carries no meaning (it is permuted arbitrarily when drained,
see `Server.processChanges`). -/
structure Memory where
  docs : String → Option Doc
  changes : List String

namespace Memory

/-- `Memory::new`, `crates/lsp-server/src/memory.rs:12-17`. -/
def new : Memory := { docs := fun _ => none, changes := [] }

/-- `HashSet::insert` on the change set (used at `crates/lsp-server/src/memory.rs:22,36,46`). -/
def mark (changes : List String) (id : String) : List String :=
  if id ∈ changes then changes else changes ++ [id]

/-- `Memory::insert`, `crates/lsp-server/src/memory.rs:20-23`. -/
def insert (m : Memory) (id content : String) (version : Int) : Memory :=
  { docs := fun i => if i = id then some ⟨content, version⟩ else m.docs i
    changes := mark m.changes id }

/-- `Memory::get`, `crates/lsp-server/src/memory.rs:26-28`. -/
def get (m : Memory) (id : String) : Option Doc := m.docs id

/-- `Memory::update`, `crates/lsp-server/src/memory.rs:31-41`. -/
def update (m : Memory) (id content : String) (version : Int) : Memory × Bool :=
  match m.docs id with
  | some _ =>
    ({ docs := fun i => if i = id then some ⟨content, version⟩ else m.docs i
       changes := mark m.changes id }, true)
  | none => (m, false)

/-- `Memory::remove`, `crates/lsp-server/src/memory.rs:44-49`. -/
def remove (m : Memory) (id : String) : Memory × Option Doc :=
  match m.docs id with
  | some doc =>
    ({ docs := fun i => if i = id then none else m.docs i
       changes := mark m.changes id }, some doc)
  | none => (m, none)

/-- `Memory::take_changes`, `crates/lsp-server/src/memory.rs:52-54`. -/
def takeChanges (m : Memory) : Memory × Option (List String) :=
  if m.changes.isEmpty then (m, none) else ({ m with changes := [] }, some m.changes)

end Memory

end Verif.Lsp
