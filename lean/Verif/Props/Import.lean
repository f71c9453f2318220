import Verif.Model.Import
import Verif.Model.Decl
import Verif.Lemmas.Examples
/-! # C85: classes registered by dotted name -/
namespace Metatab
open Py

/-- The object reached from another one by attributes. -/
inductive _root_.Spec.Path {ω : Type} (attr : ω → Str → Except ImpErr ω) : ω → List Str → ω → Prop
  | here (x : ω) : Path attr x [] x
  | step {x y z : ω} {c : Str} {cs : List Str} : attr x c = .ok y → Path attr y cs z → Path attr x (c :: cs) z

/-- A name written with dots. -/
def _root_.Spec.dotted : List Str → Str
  | [] => []
  | [c] => c
  | c :: d :: cs => c ++ '.' :: Spec.dotted (d :: cs)

theorem dotted_cons {c : Str} {cs : List Str} (h : cs ≠ []) : Spec.dotted (c :: cs) = c ++ '.' :: Spec.dotted cs := by
  cases cs with
  | nil => exact absurd rfl h
  | cons d ds => rfl

theorem splitOn_dotted {cs : List Str} (hne : cs ≠ []) (h : ∀ c ∈ cs, '.' ∉ c) : splitOn '.' (Spec.dotted cs) = cs := by
  have one : ∀ c : Str, '.' ∉ c → splitOn '.' c = [c] := by
    intro c
    induction c with
    | nil => intro _; rfl
    | cons a c ih =>
      intro h
      rw [List.mem_cons, not_or] at h
      unfold splitOn
      rw [if_neg (fun e => h.1 e.symm), ih h.2]
  have more : ∀ (c r : Str), '.' ∉ c → splitOn '.' (c ++ '.' :: r) = c :: splitOn '.' r := by
    intro c r
    induction c with
    | nil => intro _; simp only [List.nil_append, splitOn, if_true]
    | cons a c ih =>
      intro h
      rw [List.mem_cons, not_or] at h
      rw [List.cons_append, splitOn, if_neg (fun e => h.1 e.symm), ih h.2]
  induction cs with
  | nil => exact absurd rfl hne
  | cons c cs ih =>
    cases cs with
    | nil => exact one c (h c (List.mem_cons_self ..))
    | cons d ds =>
      rw [dotted_cons (by simp), more _ _ (h c (List.mem_cons_self ..)),
        ih (by simp) fun x hx => h x (List.mem_cons_of_mem _ hx)]

theorem beforeLastDot_none {s : Str} : beforeLastDot s = none ↔ '.' ∉ s := by
  induction s with
  | nil => simp [beforeLastDot]
  | cons c cs ih =>
    unfold beforeLastDot
    cases e : beforeLastDot cs with
    | some m =>
      have hm : '.' ∈ cs := Classical.byContradiction fun hn => by rw [ih.2 hn] at e; cases e
      simp [hm]
    | none =>
      have hm := ih.1 e
      dsimp only
      by_cases hc : c = '.'
      · rw [if_pos hc, hc]; simp
      · rw [if_neg hc]; simp [hm, Ne.symm hc]

theorem beforeLastDot_append (m o : Str) (h : '.' ∉ o) : beforeLastDot (m ++ '.' :: o) = some m := by
  induction m with
  | nil =>
    rw [List.nil_append, beforeLastDot, beforeLastDot_none.2 h]
    rfl
  | cons c m ih => rw [List.cons_append, beforeLastDot, ih]

theorem dotted_snoc {cs : List Str} (o : Str) (h : cs ≠ []) : Spec.dotted (cs ++ [o]) = Spec.dotted cs ++ '.' :: o := by
  induction cs with
  | nil => exact absurd rfl h
  | cons c cs ih =>
    cases cs with
    | nil => rfl
    | cons d ds =>
      rw [List.cons_append, dotted_cons (by simp), ih (by simp), dotted_cons (c := c) (cs := d :: ds) (by simp), List.append_assoc, List.cons_append]

theorem descend_ok {ω : Type} {ms : Modules ω} {x z : ω} {cs : List Str} : descend ms x cs = .ok z ↔ Spec.Path ms.attr x cs z := by
  induction cs generalizing x with
  | nil =>
    constructor
    · intro h; cases h; exact .here _
    · intro h; cases h; rfl
  | cons c cs ih =>
    constructor
    · intro h
      unfold descend at h
      cases e : ms.attr x c with
      | error k => rw [e] at h; cases h
      | ok y => rw [e] at h; exact .step e (ih.1 h)
    · intro h
      cases h with
      | step e h =>
        unfold descend
        rw [e]
        exact ih.2 h

theorem descend_error {ω : Type} {ms : Modules ω} {x : ω} {e : ImpErr} {cs : List Str} : descend ms x cs = .error e ↔
    ∃ pre a rest y, cs = pre ++ a :: rest ∧ Spec.Path ms.attr x pre y ∧ ms.attr y a = .error e := by
  induction cs generalizing x with
  | nil =>
    constructor
    · intro h; cases h
    · rintro ⟨pre, a, rest, y, h, _⟩; cases pre <;> cases h
  | cons c cs ih =>
    unfold descend
    cases ex : ms.attr x c with
    | error k =>
      constructor
      · intro h; cases h; exact ⟨[], c, cs, x, rfl, .here x, ex⟩
      · rintro ⟨pre, a, rest, y, h, hp, ha⟩
        cases hp with
        | here => cases h; rw [ex] at ha; cases ha; rfl
        | step hs _ => cases h; rw [ex] at hs; cases hs
    | ok z =>
      refine Iff.trans (ih (x := z)) ?_
      constructor
      · rintro ⟨pre, a, rest, y, h, hp, ha⟩
        exact ⟨c :: pre, a, rest, y, by rw [h, List.cons_append], .step ex hp, ha⟩
      · rintro ⟨pre, a, rest, y, h, hp, ha⟩
        cases hp with
        | here => cases h; rw [ex] at ha; cases ha
        | step hs hp =>
          cases h; rw [ex] at hs; cases hs
          exact ⟨_, a, rest, y, rfl, hp, ha⟩

/-- **C85** A dotted name `p.q.….C` imports the module `p.q.…` and gives the object found from the package `p` by the attributes `q`, …, `C`
in this order, and nothing else. -/
theorem C85_dotted {ω : Type} (ms : Modules ω) (p : Str) (qs : List Str) (c : Str) (h : ∀ x ∈ p :: (qs ++ [c]), '.' ∉ x) (z : ω) :
    importNameOrClass ms (.name (Spec.dotted (p :: (qs ++ [c])))) = .ok z ↔
      ∃ top, ms.imp (Spec.dotted (p :: qs)) = .ok top ∧ Spec.Path ms.attr top (qs ++ [c]) z := by
  have hm : beforeLastDot (Spec.dotted (p :: (qs ++ [c]))) = some (Spec.dotted (p :: qs)) := by
    rw [← List.cons_append, dotted_snoc c (by simp)]
    exact beforeLastDot_append _ _ (h c (by simp))
  unfold importNameOrClass
  dsimp only
  rw [hm, splitOn_dotted (by simp) h]
  dsimp only [List.drop]
  cases e : ms.imp (Spec.dotted (p :: qs)) with
  | error k =>
    constructor
    · intro h; cases h
    · rintro ⟨top, ht, _⟩; cases ht
  | ok top =>
    constructor
    · intro h; exact ⟨top, rfl, descend_ok.1 h⟩
    · rintro ⟨top', ht, hp⟩
      cases ht
      exact descend_ok.2 hp

/-- **C85** An error of the import, or of the first attribute that is missing, is what the lookup raises. -/
theorem C85_error {ω : Type} (ms : Modules ω) (p : Str) (qs : List Str) (c : Str) (h : ∀ x ∈ p :: (qs ++ [c]), '.' ∉ x) (e : ImpErr) :
    importNameOrClass ms (.name (Spec.dotted (p :: (qs ++ [c])))) = .error e ↔
      ms.imp (Spec.dotted (p :: qs)) = .error e ∨
        ∃ top pre x rest y, ms.imp (Spec.dotted (p :: qs)) = .ok top ∧ qs ++ [c] = pre ++ x :: rest ∧ Spec.Path ms.attr top pre y ∧
          ms.attr y x = .error e := by
  have hm : beforeLastDot (Spec.dotted (p :: (qs ++ [c]))) = some (Spec.dotted (p :: qs)) := by
    rw [← List.cons_append, dotted_snoc c (by simp)]
    exact beforeLastDot_append _ _ (h c (by simp))
  unfold importNameOrClass
  dsimp only
  rw [hm, splitOn_dotted (by simp) h]
  dsimp only [List.drop]
  cases ei : ms.imp (Spec.dotted (p :: qs)) with
  | error k =>
    constructor
    · intro h; cases h; exact .inl rfl
    · rintro (h | ⟨top, pre, x, rest, y, ht, _⟩)
      · cases h; rfl
      · cases ht
  | ok top =>
    refine Iff.trans (descend_error (x := top)) ?_
    constructor
    · rintro ⟨pre, x, rest, y, h1, h2, h3⟩; exact .inr ⟨top, pre, x, rest, y, rfl, h1, h2, h3⟩
    · rintro (h | ⟨top', pre, x, rest, y, ht, h1, h2, h3⟩)
      · cases h
      · cases ht; exact ⟨pre, x, rest, y, h1, h2, h3⟩

/-- A name without a dot is refused whatever modules there are, even if there is one of this name. -/
theorem C85_undotted {ω : Type} (ms : Modules ω) (n : Str) (h : '.' ∉ n) : importNameOrClass ms (.name n) = .error .valueError := by
  unfold importNameOrClass
  dsimp only
  rw [beforeLastDot_none.2 h]

/-- What is registered for a name under a lookup: a class, nothing (also if the code imported raises `KeyError`), or an error. -/
inductive _root_.Spec.Found {ω : Type} (ms : Modules ω) (r : Option (ClassRef ω)) : Option (Except ImpErr ω) → Prop
  | unregistered : r = none → Found ms r none
  | keyError {x : ClassRef ω} : r = some x → importNameOrClass ms x = .error .keyError → Found ms r none
  | raises {x : ClassRef ω} {e : ImpErr} : r = some x → importNameOrClass ms x = .error e → e ≠ .keyError → Found ms r (some (.error e))
  | imported {x : ClassRef ω} {c : ω} : r = some x → importNameOrClass ms x = .ok c → Found ms r (some (.ok c))

theorem tryClass_found {ω : Type} (ms : Modules ω) (classes : Dict (ClassRef ω)) (n : Str) :
    Spec.Found ms (classes.get? n) (tryClass ms classes n) := by
  unfold tryClass
  cases e : classes.get? n with
  | none => exact .unregistered rfl
  | some r =>
    dsimp only
    cases ei : importNameOrClass ms r with
    | ok c => exact .imported rfl ei
    | error k =>
      cases k with
      | keyError => exact .keyError rfl ei
      | valueError => exact .raises rfl ei (by decide)
      | importError => exact .raises rfl ei (by decide)
      | attributeError => exact .raises rfl ei (by decide)
      | other n => exact .raises rfl ei (by intro h; cases h)

/-- **C85** The class for a name is what its registration imports to; failing that what the registration of its declared super-term imports
to; failing that `Term`. A registration that cannot be imported raises its error at every lookup, except that a `KeyError` raised while
importing counts as no registration. -/
theorem C85_lookup {ω : Type} (ms : Modules ω) (classes : Dict (ClassRef ω)) (supers : Dict Str) (term : ω) (name : Str) :
    ∃ own, Spec.Found ms (classes.get? (lower name)) own ∧
      ((∃ x, own = some x ∧ importTermClass ms classes supers term name = x) ∨
        own = none ∧ (supers.get? (lower name) = none ∧ importTermClass ms classes supers term name = .ok term ∨
          ∃ sup up, supers.get? (lower name) = some sup ∧ Spec.Found ms (classes.get? sup) up ∧
            (up = none ∧ importTermClass ms classes supers term name = .ok term ∨
              ∃ x, up = some x ∧ importTermClass ms classes supers term name = x))) := by
  refine ⟨_, tryClass_found ms classes (lower name), ?_⟩
  unfold importTermClass
  cases tryClass ms classes (lower name) with
  | some x => exact .inl ⟨x, rfl, rfl⟩
  | none =>
    refine .inr ⟨rfl, ?_⟩
    cases supers.get? (lower name) with
    | none => exact .inl ⟨rfl, rfl⟩
    | some sup =>
      refine .inr ⟨sup, _, rfl, tryClass_found ms classes sup, ?_⟩
      dsimp only
      cases tryClass ms classes sup with
      | none => exact .inl ⟨rfl, rfl⟩
      | some x => exact .inr ⟨x, rfl, rfl⟩

/-- **C85** Where everything registered can be imported, documents and parsers see the classes that the names stand for: the lookup is the
one of the model of documents, in the table of the imported classes. -/
theorem C85_resolved (ms : Modules Cls) (refs : Dict (ClassRef Cls)) (s : St)
    (hkeys : refs.keys = s.classes.keys)
    (himp : ∀ n r c, refs.get? n = some r → s.classes.get? n = some c → importNameOrClass ms r = .ok c) (name : Str) :
    importTermClass ms refs s.superTerms .term name = .ok (docTermClass s name) ∧
      importTermClass ms refs (parserSuperTerms s) .term name = .ok (parserTermClass s name) := by
  have look : ∀ (a : Dict (ClassRef Cls)) (b : Dict Cls) (n : Str), a.keys = b.keys → (a.get? n).isSome = (b.get? n).isSome := by
    intro a
    induction a with
    | nil =>
      intro b n h
      cases b with
      | nil => rfl
      | cons y b => cases h
    | cons x a ih =>
      intro b n h
      cases b with
      | nil => cases h
      | cons y b =>
        obtain ⟨k, v⟩ := x
        obtain ⟨k', v'⟩ := y
        have h1 : k = k' := by injection h
        have h2 : Dict.keys a = Dict.keys b := by injection h
        subst h1
        simp only [Dict.get?]
        split
        · rfl
        · exact ih b n h2
  have tr : ∀ n, tryClass ms refs n = (s.classes.get? n).map .ok := by
    intro n
    have hk := look refs s.classes n hkeys
    unfold tryClass
    cases er : refs.get? n with
    | none =>
      rw [er] at hk
      cases ec : s.classes.get? n with
      | none => rfl
      | some c => rw [ec] at hk; cases hk
    | some r =>
      rw [er] at hk
      cases ec : s.classes.get? n with
      | none => rw [ec] at hk; cases hk
      | some c => simp only [himp n r c er ec, Option.map_some]
  constructor
  · unfold importTermClass docTermClass
    rw [tr]
    cases s.classes.get? (lower name) with
    | some c => rfl
    | none =>
      dsimp only [Option.map]
      cases s.superTerms.get? (lower name) with
      | none => rfl
      | some sup => dsimp only; rw [tr]; cases s.classes.get? sup <;> rfl
  · unfold importTermClass parserTermClass
    rw [tr]
    cases s.classes.get? (lower name) with
    | some c => rfl
    | none =>
      dsimp only [Option.map]
      cases (parserSuperTerms s).get? (lower name) with
      | none => rfl
      | some sup => dsimp only; rw [tr]; cases s.classes.get? sup <;> rfl

/-- A package with a module and a class in it; the module `bad` raises `KeyError`. Objects are numbers. -/
def exModules : Modules Nat where
  imp n := if n = py!"pkg" ∨ n = py!"pkg.mod" then .ok 1 else if n = py!"bad" then .error .keyError else .error .importError
  attr x a := if x = 1 ∧ a = py!"mod" then .ok 2 else if x = 2 ∧ a = py!"Thing" then .ok 3 else .error .attributeError

/-- A class of a module, an undotted name, a missing module, a missing class. -/
example : importNameOrClass exModules (.name (py!"pkg.mod.Thing")) = .ok 3 ∧
    importNameOrClass exModules (.name (py!"pkg")) = .error .valueError ∧
    importNameOrClass exModules (.name (py!"nope.Thing")) = .error .importError ∧
    importNameOrClass exModules (.name (py!"pkg.mod.Other")) = .error .attributeError := by decide +kernel

example : importNameOrClass exModules (.name (Spec.dotted [py!"pkg", py!"mod", py!"Thing"])) = .ok 3 :=
  (C85_dotted exModules (py!"pkg") [py!"mod"] (py!"Thing") (by decide +kernel) 3).2
    ⟨1, by decide +kernel, .step (by decide +kernel : exModules.attr 1 (py!"mod") = .ok 2)
      (.step (by decide +kernel : exModules.attr 2 (py!"Thing") = .ok 3) (.here 3))⟩

/-- The lookup of a derived term, of a term registered with a broken name, and of one whose module raises `KeyError`, which is passed over. -/
example :
    let classes := [(py!"root.datafile", ClassRef.name (py!"pkg.mod.Thing")), (py!"root.broken", .name (py!"nope.X")), (py!"root.sql", .name (py!"bad.X"))]
    let supers := [(py!"root.sql", py!"root.datafile")]
    (importTermClass exModules classes supers 0 (py!"Root.Datafile"), importTermClass exModules classes supers 0 (py!"Root.Sql"),
      importTermClass exModules classes supers 0 (py!"Root.Name")) = (.ok 3, .ok 3, .ok 0) ∧
      importTermClass exModules classes supers 0 (py!"Root.Broken") = .error .importError := by decide +kernel

/-- A registration by name and one by class that both resolve. -/
def exClsModules : Modules Cls where
  imp _ := .ok .term
  attr _ a := if a = py!"Thing" then .ok (.user 3) else .error .attributeError

example :
    let refs := [(py!"root.section", ClassRef.cls Cls.section), (py!"root.doc", ClassRef.name (py!"pkg.Thing"))]
    let s := { exDoc with classes := [(py!"root.section", .section), (py!"root.doc", .user 3)] }
    importTermClass exClsModules refs s.superTerms .term (py!"Root.Doc") = .ok (.user 3) := by
  intro refs s
  refine ((C85_resolved exClsModules refs s (by decide +kernel) ?_ (py!"Root.Doc")).1).trans (by decide +kernel)
  intro n r c hr hc
  by_cases h1 : n = py!"root.section"
  · subst h1; cases hr; cases hc; decide +kernel
  · by_cases h2 : n = py!"root.doc"
    · subst h2; cases hr; cases hc; decide +kernel
    · have : Dict.get? refs n = none := by
        simp only [refs, Dict.get?]
        rw [if_neg (fun e => h1 e.symm), if_neg (fun e => h2 e.symm)]
      rw [this] at hr; cases hr

end Metatab
