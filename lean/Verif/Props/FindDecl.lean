import Verif.Spec.FindDecl
/-! # C67: finding declaration files -/
namespace Metatab
open Py _root_.Spec

theorem firstThere_or_none (has : Str → Bool) (cs : List Str) : (∃ r, FirstThere has cs r) ∨ ∀ c ∈ cs, has c = false := by
  induction cs with
  | nil => exact .inr fun _ h => by cases h
  | cons c cs ih =>
    cases hc : has c with
    | true => exact .inl ⟨c, .inl ⟨hc, rfl⟩⟩
    | false =>
      rcases ih with ⟨r, h⟩ | h
      · exact .inl ⟨r, .inr ⟨hc, h⟩⟩
      · exact .inr fun x hx => by
          rcases List.mem_cons.1 hx with rfl | hx
          · exact hc
          · exact h x hx

theorem firstThere_there {has : Str → Bool} : ∀ {cs : List Str} {r : Str}, FirstThere has cs r → has r = true ∧ r ∈ cs
  | _ :: _, _, .inl ⟨h, e⟩ => ⟨e ▸ h, e ▸ List.mem_cons_self⟩
  | _ :: _, _, .inr ⟨_, h⟩ => ⟨(firstThere_there h).1, List.mem_cons_of_mem _ (firstThere_there h).2⟩

/-- The order in which the code looks. -/
def lookOrder (k : Shelf) (d name : Str) : List Str :=
  name :: (packaged k.pkg name ++ [pathJoin d name, pathJoin d (name ++ py!".csv")])

/-- **C67** What `find_declare_doc` gives is the first path that exists among: the name, the name and the name with `.csv` in the package
of declarations, the name and the name with `.csv` in the given directory. If none exists, a URL is given back without its outer
slashes and for any other name `IncludeError` is raised. -/
theorem C67_found (k : Shelf) (d name : Str) :
    (∀ r, FirstThere k.has (lookOrder k d name) r → findDeclareDoc k d name = .ok r) ∧
    ((∀ c ∈ lookOrder k d name, k.has c = false) →
      findDeclareDoc k d name = if startsWith (py!"http") name then .ok (stripChar '/' name) else .error .includeError) := by
  constructor
  · intro r h
    simp only [lookOrder, packaged, List.cons_append, List.nil_append, FirstThere] at h
    unfold findDeclareDoc declarationPath
    rcases h with ⟨h1, rfl⟩ | ⟨h1, ⟨h2, rfl⟩ | ⟨h2, ⟨h3, rfl⟩ | ⟨h3, ⟨h4, rfl⟩ | ⟨h4, ⟨h5, rfl⟩ | ⟨-, h⟩⟩⟩⟩⟩
    · simp [h1]
    · simp [h1, h2]
    · simp [h1, h2, h3]
    · simp [h1, h2, h3, h4]
    · simp [h1, h2, h3, h4, h5]
    · exact h.elim
  · intro h
    have h0 := h name (by simp [lookOrder])
    have h1 := h (pathJoin k.pkg name) (by simp [lookOrder, packaged])
    have h2 := h (pathJoin k.pkg (name ++ py!".csv")) (by simp [lookOrder, packaged])
    have h3 := h (pathJoin d name) (by simp [lookOrder])
    have h4 := h (pathJoin d (name ++ py!".csv")) (by simp [lookOrder])
    unfold findDeclareDoc declarationPath
    simp [h0, h1, h2, h3, h4]

/-- **C67** The result is always a file that exists or a URL, and the search raises nothing but `IncludeError`. -/
theorem C67_exists (k : Shelf) (d name : Str) :
    (∃ r, findDeclareDoc k d name = .ok r ∧ (k.has r = true ∨ startsWith (py!"http") name = true ∧ r = stripChar '/' name)) ∨
      findDeclareDoc k d name = .error .includeError := by
  rcases firstThere_or_none k.has (lookOrder k d name) with ⟨r, h⟩ | h
  · exact .inl ⟨r, (C67_found k d name).1 r h, .inl (firstThere_there h).1⟩
  · rw [(C67_found k d name).2 h]
    split
    · next hh => exact .inl ⟨_, rfl, .inr ⟨hh, rfl⟩⟩
    · exact .inr rfl

/-- **C67** (as documented). For a name that is not in the package of declarations, files near the document come first, in the documented
order, and a URL comes after them. Missing: names that are in the package, see `C67_shadow_witness`. -/
theorem C67_documented_partial (k : Shelf) (d name : Str) (hp : ∀ c ∈ packaged k.pkg name, k.has c = false) :
    (∀ r, FirstThere k.has (nearby d name) r → findDeclareDoc k d name = .ok r) ∧
    ((∀ c ∈ nearby d name, k.has c = false) → startsWith (py!"http") name = true → findDeclareDoc k d name = .ok (stripChar '/' name)) := by
  have h1 := hp (pathJoin k.pkg name) (by simp [packaged])
  have h2 := hp (pathJoin k.pkg (name ++ py!".csv")) (by simp [packaged])
  constructor
  · intro r h
    refine (C67_found k d name).1 r ?_
    simp only [nearby, FirstThere] at h
    simp only [lookOrder, packaged, List.cons_append, List.nil_append, FirstThere, h1, h2]
    simpa using h
  · intro h hh
    rw [(C67_found k d name).2 ?_, if_pos hh]
    intro c hc
    simp only [lookOrder, packaged, List.cons_append, List.nil_append, List.mem_cons, List.not_mem_nil, or_false] at hc
    rcases hc with rfl | rfl | rfl | rfl | rfl
    · exact h _ (by simp [nearby])
    · exact h1
    · exact h2
    · exact h _ (by simp [nearby])
    · exact h _ (by simp [nearby])

/-- A package with the declaration `metatab-latest`, and a document directory with a declaration of the same name and another one. -/
def exShelf : Shelf :=
  ⟨fun p => p ∈ [py!"/lib/metatabdecl/metatab-latest.csv", py!"/doc/metatab-latest.csv", py!"/doc/own.csv"], py!"/lib/metatabdecl"⟩

/-- **C67** does not hold as documented: a declaration next to the document is not used if the package has one of that name. -/
theorem C67_shadow_witness : FirstThere exShelf.has (nearby (py!"/doc") (py!"metatab-latest")) (py!"/doc/metatab-latest.csv") ∧
    findDeclareDoc exShelf (py!"/doc") (py!"metatab-latest") = .ok (py!"/lib/metatabdecl/metatab-latest.csv") := by
  refine ⟨.inr ⟨by decide, .inr ⟨by decide, .inl ⟨by decide, by decide⟩⟩⟩, by decide⟩

/-- The hypotheses of `C67_documented_partial` can be met. -/
example : findDeclareDoc exShelf (py!"/doc") (py!"own") = .ok (py!"/doc/own.csv") :=
  (C67_documented_partial exShelf (py!"/doc") (py!"own") (by decide)).1 _ (.inr ⟨by decide, .inr ⟨by decide, .inl ⟨by decide, by decide⟩⟩⟩)
example : findDeclareDoc exShelf (py!"/doc") (py!"http://x.org/d.csv/") = .ok (py!"http://x.org/d.csv") :=
  (C67_documented_partial exShelf (py!"/doc") (py!"http://x.org/d.csv/") (by decide)).2 (by decide) (by decide)
example : findDeclareDoc exShelf (py!"/doc") (py!"nowhere") = .error .includeError := (C67_found _ _ _).2 (by decide)

end Metatab
