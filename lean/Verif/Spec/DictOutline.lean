import Verif.Spec.Dict
import Verif.Spec.Outline
import Verif.Spec.SameDoc
/-! The nested dict an outline stands for, and when two nested dicts differ only in the order of their entries. -/
namespace Spec
open Py Metatab

/-- One entry for each name: the value, or the list of the values when there are several. -/
def grouped (l : List (Str × DVal)) : List (Str × DVal) :=
  (distinctNames (l.map Prod.fst)).filterMap fun n => (entryAny ((l.filter fun kv => kv.1 = n).map Prod.snd)).map fun v => (n, v)

/-- With the value of the term itself, unless that is empty. -/
def withOwn (v : Val) (d : List (Str × DVal)) : List (Str × DVal) := if v.truthy then Dict.set d (py!"@value") (.val v) else d

mutual
/-- A terminal item is its value, any other a dict of its children and its value. -/
def Item.dict : Item → DVal
  | .mk _ v ks => if ks.isEmpty then .val (asVal v) else .dict (withOwn (asVal v) (grouped (itemDicts ks)))
def itemDicts : List Item → List (Str × DVal)
  | [] => []
  | k :: ks => (k.name, k.dict) :: itemDicts ks
end

/-- The items of all sections together. The name `@value` is left out, or stands for the name of the document. -/
def outlineDict (rvn : Bool) (D : List Part) : DVal :=
  if (D.flatMap Part.items).isEmpty then .val (.str (py!"Root"))
  else if rvn then .dict ((grouped (itemDicts (D.flatMap Part.items))).filter fun kv => kv.1 ≠ py!"@value")
  else .dict (withOwn (.str (py!"Root")) (grouped (itemDicts (D.flatMap Part.items))))

/-- Every term of the document has the value name `@value` and no declared child property type. -/
def PlainTerms (s : St) : Prop := ∀ t, InDoc s t → (s.heap t).tvn = py!"@value" ∧ (s.heap t).cpt ∉ specialTypes

/-- The same up to the order of the entries of dicts and of lists, at any depth. -/
inductive DictAlike : DVal → DVal → Prop
  | val (v : Val) : DictAlike (.val v) (.val v)
  | list {l m l' : List DVal} (h : List.Forall₂ DictAlike l m) (p : m.Perm l') : DictAlike (.list l) (.list l')
  | dict {d d' : List (Str × DVal)} (g : Str → DVal) (k : (d.map Prod.fst).Perm (d'.map Prod.fst)) (h : ∀ n v, Dict.get? d n = some v → DictAlike v (g n))
      (h' : ∀ n ∈ d.map Prod.fst, Dict.get? d' n = some (g n)) : DictAlike (.dict d) (.dict d')

end Spec
