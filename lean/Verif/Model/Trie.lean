/-!
# Model of `featuretools/utils/trie.py`

Python tries are mutable and `get_node` hands out a reference to the node it
found or created.  The model is functional: `Trie.modifyAt` is "get the node at
`path`, creating the missing nodes, and let the caller change it with `f`"; the
returned trie is the whole trie after that.
-/
namespace FT

/-- A trie node: its value and its children in dictionary insertion order.
Models the fields `value` and `_children` of `Trie` (`utils/trie.py` 25-34).
The `_path_constructor` is left out: paths are plain lists here. -/
inductive Trie (κ ν : Type) where
  | node (value : ν) (children : List (κ × Trie κ ν))

namespace Trie

variable {κ ν : Type}

/-- The attribute `value` (`utils/trie.py` 31). -/
def value : Trie κ ν → ν
  | .node v _ => v

/-- `Trie.children` (`utils/trie.py` 36-58): edges and sub-tries, in insertion order. -/
def children : Trie κ ν → List (κ × Trie κ ν)
  | .node _ cs => cs

/-- Assigning to the attribute `value` of a node. -/
def setValue (v : ν) : Trie κ ν → Trie κ ν
  | .node _ cs => .node v cs

/-- `Trie.__init__` (`utils/trie.py` 25-34): a fresh node. -/
def new (dflt : ν) : Trie κ ν := .node dflt []

/-- Update of one key of the dictionary `_children`: `g` is applied to the
existing entry, or to `init` appended at the end when the key is absent
(`utils/trie.py` 80-85). -/
def upsert [DecidableEq κ] (k : κ) (g : Trie κ ν → Trie κ ν) (init : Trie κ ν) :
    List (κ × Trie κ ν) → List (κ × Trie κ ν)
  | [] => [(k, g init)]
  | (k', t) :: cs => if k' = k then (k', g t) :: cs else (k', t) :: upsert k g init cs

/-- `Trie.get_node(path)` followed by a change `f` of the returned node
(`utils/trie.py` 60-89). -/
def modifyAt [DecidableEq κ] (dflt : ν) (f : Trie κ ν → Trie κ ν) : List κ → Trie κ ν → Trie κ ν
  | [], t => f t
  | k :: rest, .node v cs => .node v (upsert k (modifyAt dflt f rest) (new dflt) cs)

/-- First entry of the dictionary `_children` with the given key. -/
def child? [DecidableEq κ] (k : κ) : List (κ × Trie κ ν) → Option (Trie κ ν)
  | [] => none
  | (k', t) :: cs => if k' = k then some t else child? k cs

/-- The node that `Trie.get_node(path)` returns (`utils/trie.py` 60-89). -/
def nodeAt [DecidableEq κ] (dflt : ν) : List κ → Trie κ ν → Trie κ ν
  | [], t => t
  | k :: rest, .node _ cs => nodeAt dflt rest ((child? k cs).getD (new dflt))

mutual
/-- `Trie.__iter__` (`utils/trie.py` 91-104): depth first, the node itself first. -/
def toList : Trie κ ν → List (List κ × ν)
  | .node v cs => ([], v) :: toListChildren cs
/-- The loop over `self.children()` in `Trie.__iter__` (`utils/trie.py` 99-104). -/
def toListChildren : List (κ × Trie κ ν) → List (List κ × ν)
  | [] => []
  | (k, t) :: cs => (toList t).map (fun pv => (k :: pv.1, pv.2)) ++ toListChildren cs
end

/-- What a user does with a trie: read a node's value, or assign it. -/
inductive Op (κ ν : Type) where
  | get (path : List κ)
  | set (path : List κ) (v : ν)

/-- Effect of one use on the trie: `t.get_node(path).value` also creates nodes. -/
def step [DecidableEq κ] (dflt : ν) (t : Trie κ ν) : Op κ ν → Trie κ ν
  | .get p => modifyAt dflt id p t
  | .set p v => modifyAt dflt (setValue v) p t

/-- The trie after a whole history, starting from `Trie(default)`. -/
def run [DecidableEq κ] (dflt : ν) (ops : List (Op κ ν)) : Trie κ ν :=
  ops.foldl (step dflt) (new dflt)

end Trie
end FT
