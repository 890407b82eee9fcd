import Verif.Common
import Verif.Tactics

/-!
# Model of the property trees

Sources: `Schweizer-Messer/sm_property_tree/src/PropertyTree.cpp` (cited as `PT`), `src/BoostPropertyTreeImplementation.cpp` (cited as `Imp`) and
`include/sm_property_tree/BoostPropertyTreeImplementation.hpp` (cited as `Hpp`), and `ensureTrailingBackslash` of
`Schweizer-Messer/sm_common/include/sm_common/string_routines.hpp`.

Simplifications: a string is a list of characters.  The tree of Boost is modelled as it is documented: a node has data and a list of named children; a path is split at
the separator, and a separator at its end is skipped.  Files are not modelled, nor is the missing implementation (a null pointer).
-/

namespace Kalibr.PTree

abbrev Str := List Char

/-- `boost::property_tree::ptree`. -/
inductive Tree
  | node (data : Str) (kids : List (Str × Tree))

def Tree.data : Tree → Str
  | .node d _ => d
def Tree.kids : Tree → List (Str × Tree)
  | .node _ k => k

/-- The fragments of `path_type(s, '/')`. -/
def frags : Str → List Str
  | [] => []
  | c :: s =>
    if c = '/' then [] :: frags s
    else match frags s with
      | [] => [[c]]
      | f :: r => (c :: f) :: r

/-- `find`: the first child of the name. -/
def find (f : Str) : List (Str × Tree) → Option Tree
  | [] => none
  | (g, t) :: l => if g = f then some t else find f l

/-- The children with the first one of the name replaced. -/
def replaceKid (f : Str) (t : Tree) : List (Str × Tree) → List (Str × Tree)
  | [] => []
  | (g, u) :: l => if g = f then (g, t) :: l else (g, u) :: replaceKid f t l

/-- `get_child_optional`. -/
def lookup : Tree → List Str → Option Tree
  | t, [] => some t
  | t, f :: p => match find f t.kids with
    | none => none
    | some u => lookup u p

/-- `put_value` of the node at a path. -/
def putValueAt (v : Str) : Tree → List Str → Tree
  | t, [] => .node v t.kids
  | t, f :: p => match find f t.kids with
    | none => t
    | some u => .node t.data (replaceKid f (putValueAt v u p) t.kids)

/-- `put_child` with a new node: the nodes on the way are made if they do not exist. -/
def putChild (v : Str) : Tree → List Str → Tree
  | t, [] => t
  | t, [f] => match find f t.kids with
    | none => .node t.data (t.kids ++ [(f, .node v [])])
    | some _ => .node t.data (replaceKid f (.node v []) t.kids)
  | t, f :: g :: p => match find f t.kids with
    | none => .node t.data (t.kids ++ [(f, putChild v (.node [] []) (g :: p))])
    | some u => .node t.data (replaceKid f (putChild v u (g :: p)) t.kids)

/-- `put`: the assertion for a separator at the end is undefined behaviour. -/
def put (t : Tree) (path : Str) (v : Str) : Out Tree :=
  match lookup t (frags path) with
  | some _ => .ok (putValueAt v t (frags path))
  | none => if path.getLast? = some '/' then .ub else .ok (putChild v t (frags path))

/-- How values of a type are written and read. -/
structure Translator (α : Type) where
  enc : α → Str
  dec : Str → Option α

/-- The exceptions. -/
inductive Err
  | invalidKey
  | invalidValue
  /-- `boost::property_tree::ptree_bad_path`. -/
  | badPath
  deriving DecidableEq

/-- What a call gives. -/
inductive Res (α : Type)
  | ok (a : α)
  | throw (e : Err)
  | ub

/-- `get<T>(key)`, Hpp 77-97. -/
def impGet {α : Type} (c : Translator α) (t : Tree) (key : Str) : Res α :=
  match lookup t (frags (key.drop 1)) with
  | none => .throw .invalidKey
  | some u => match c.dec u.data with
    | none => .throw .invalidValue
    | some a => .ok a

/-- `set<T>(key, value)`, Hpp 131-134. -/
def impSet {α : Type} (c : Translator α) (t : Tree) (key : Str) (a : α) : Out Tree := put t (key.drop 1) (c.enc a)

/-- `get_optional<T>`. -/
def getOptional {α : Type} (c : Translator α) (t : Tree) (key : Str) : Option α := (lookup t (frags (key.drop 1))).bind fun u => c.dec u.data

/-- `get<T>(key, defaultValue)` that is not constant, Hpp 114-128. -/
def impGetDefault {α : Type} (c : Translator α) (t : Tree) (key : Str) (d : α) : Res α × Tree :=
  match getOptional c t key with
  | some a => (.ok a, t)
  | none => match impSet c t key d with
    | .ok t' => (.ok d, t')
    | _ => (.ub, t)

/-- `get<T>(key, defaultValue) const`, Hpp 99-111. -/
def impGetDefaultConst {α : Type} (c : Translator α) (t : Tree) (key : Str) (d : α) : Res α :=
  match getOptional c t key with
  | some a => .ok a
  | none => .ok d

/-- `doesKeyExist`, Imp 80-85: the slash at the beginning is not removed, and `get` throws when there is nothing. -/
def impDoesKeyExist (t : Tree) (key : Str) : Res Bool :=
  match lookup t (frags key) with
  | none => .throw .badPath
  | some _ => .ok true

/-- `ensureTrailingBackslash`, `string_routines.hpp` 101-110. -/
def ensureTrailingBackslash (s : Str) : Str := if s = [] then ['/'] else if s.getLast? = some '/' then s else s ++ ['/']

def leadingSlash (s : Str) : Str := if s ≠ [] ∧ s.head? ≠ some '/' then '/' :: s else s

/-- The first constructor, PT 7-12: the namespace. -/
def mkNamespace (base : Str) : Str := leadingSlash (ensureTrailingBackslash base)

/-- The second constructor, PT 14-28. -/
def childNamespace (parent child : Str) : Str :=
  leadingSlash (if child ≠ [] ∧ child.head? = some '/' then ensureTrailingBackslash child else ensureTrailingBackslash (parent ++ child))

/-- `buildQualifiedKeyName`, PT 37-50. -/
def qualified (ns key : Str) : Option Str :=
  if key = [] then none
  else if key.head? = some '/' then (if key.length ≤ 1 then none else some key)
  else some (ns ++ key)

/-- `getDouble(key)` and so on, PT 53-57. -/
def get {α : Type} (c : Translator α) (ns : Str) (t : Tree) (key : Str) : Res α :=
  match qualified ns key with
  | none => .throw .invalidKey
  | some k => impGet c t k

/-- `setDouble(key, value)` and so on, PT 129-133. -/
def set {α : Type} (c : Translator α) (ns : Str) (t : Tree) (key : Str) (a : α) : Res Unit × Tree :=
  match qualified ns key with
  | none => (.throw .invalidKey, t)
  | some k => match impSet c t k a with
    | .ok t' => (.ok (), t')
    | _ => (.ub, t)

/-- `getDouble(key, defaultValue)` and so on, PT 59-69.  Both members call the member of the implementation that is not constant, as `_imp` points to
an implementation that is not constant. -/
def getDefault {α : Type} (c : Translator α) (ns : Str) (t : Tree) (key : Str) (d : α) : Res α × Tree :=
  match qualified ns key with
  | none => (.throw .invalidKey, t)
  | some k => impGetDefault c t k d

/-- `getDouble(key, defaultValue) const` and so on, PT 59-63. -/
def getDefaultConst {α : Type} (c : Translator α) (ns : Str) (t : Tree) (key : Str) (d : α) : Res α × Tree := getDefault c ns t key d

/-- `doesKeyExist`, PT 122-126. -/
def doesKeyExist (ns : Str) (t : Tree) (key : Str) : Res Bool :=
  match qualified ns key with
  | none => .throw .invalidKey
  | some k => impDoesKeyExist t k

/-! ## Specification -/

/-- The data at a path. -/
def dataAt (t : Tree) (p : List Str) : Option Str := (lookup t p).map Tree.data

/-- Values come back as they were written. -/
def Translator.Good {α : Type} (c : Translator α) : Prop := ∀ a, c.dec (c.enc a) = some a

/-- Strings are written as they are. -/
def stringT : Translator Str := ⟨id, some⟩

/-- A name that can be set: characters, and no slash at its end. -/
def ValidKey (key : Str) : Prop := key ≠ [] ∧ key.getLast? ≠ some '/'

/-- The path of a name in a namespace. -/
def pathOf (ns key : Str) : List Str := frags ((if key.head? = some '/' then key else ns ++ key).drop 1)

end Kalibr.PTree
