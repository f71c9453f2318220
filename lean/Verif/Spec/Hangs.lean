import Verif.Model.Heap
/-! Being a proper descendant, read off the lists of children. -/
namespace Spec

/-- `c` is a proper descendant of `t`. -/
inductive Hangs (h : Nat → Metatab.Obj) : Nat → Nat → Prop
  | kid {t c : Nat} : c ∈ (h t).children → Hangs h t c
  | deeper {t k c : Nat} : k ∈ (h t).children → Hangs h k c → Hangs h t c

/-- Along the list nothing comes before something it lies below. -/
def ParentsFirst (h : Nat → Metatab.Obj) (l : List Nat) : Prop := l.Pairwise fun a b => ¬Hangs h b a

end Spec
