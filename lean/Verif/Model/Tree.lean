import Verif.Model.Heap
/-! # Walking down from a term

The recursive readers of the code (`descendents`, `rows`, `_convert_to_dict`) walk the children of a term. The model first unfolds
the heap below a term into a tree and then runs each reader on the tree. Unfolding a cyclic structure is the `RecursionError` of the
code; the bound used is larger than any path of an acyclic heap. -/
namespace Metatab
open Py

/-- The objects below a term. -/
inductive Tree | node (id : Nat) (o : Obj) (kids : List Tree)

namespace Tree
def id : Tree → Nat | .node i _ _ => i
def obj : Tree → Obj | .node _ o _ => o
def kids : Tree → List Tree | .node _ _ k => k
end Tree

/-- Unfold the heap below an object; the first number bounds the depth. -/
def treeF (h : Nat → Obj) : Nat → Nat → Except Err Tree
  | 0, _ => .error .recursionError
  | f + 1, t => do
    let ks ← (h t).children.mapM (treeF h f)
    return .node t (h t) ks

/-- The tree below an object. A path of an acyclic heap has at most `next` objects. -/
def tree (s : St) (t : Nat) : Except Err Tree := treeF s.heap (s.next + 1) t

mutual
/-- `Term.descendents`, metatab/terms.py:639-647. -/
def Tree.descendents : Tree → List Nat
  | .node _ _ ks => descendentsL ks
/-- The loop of `Term.descendents`. -/
def descendentsL : List Tree → List Nat
  | [] => []
  | k :: ks => k.id :: (k.descendents ++ descendentsL ks)
end

/-- `Term.descendents` of a term. -/
def descendents (s : St) (t : Nat) : Except Err (List Nat) := do
  let tr ← tree s t
  return tr.descendents

/-- The terms of a section with their descendants, metatab/doc.py:831-834. -/
def sectionTerms (s : St) (sec : Nat) : Except Err (List Nat) := do
  let ls ← (s.heap sec).terms.mapM fun t => do
    let tr ← tree s t
    return t :: tr.descendents
  return ls.flatten

/-- `MetatabDoc.all_terms`, metatab/doc.py:820-834. -/
def allTerms (s : St) : Except Err (List Nat) := do
  let ls ← s.sections.mapM fun kv => do
    let ts ← sectionTerms s kv.2
    return if (s.heap kv.2).value ≠ .str (py!"Root") then kv.2 :: ts else ts
  return ls.flatten

end Metatab
