import Verif.Props.NewTerm
import Verif.Props.Items
import Verif.Lemmas.MapM
import Verif.Spec.Lookup
/-! # C64: looking things up below a term or a section; C65: assigning to an item of a section -/
namespace Metatab
open Py _root_.Spec

/-! ## Terms -/
/-- The lookups below a term, given what it shows under the name. -/
theorem item_lookup {s : St} {t : Nat} (hc : (s.heap t).cls.isSection = false) {k : Str} (hk : '.' ∉ k) {r : Option Nat}
    (h : ItemIs s.heap t k r) :
    termGetItem s t k = (match r with | some c => .ok c | none => .error .keyError) := by
  simp only [termGetItem, termFindFirst, localName, hk, if_false, bind, Except.bind, pure, Except.pure, childNamed]
  cases h with
  | own e => rw [if_pos e]
  | child e f =>
    rw [if_neg e]
    obtain ⟨pre, post, h1, h2, h3⟩ := f
    have : ((s.heap t).children.find? fun c => lower (s.heap c).rt == lower k && (Val.fls == Val.fls || Val.pyEq (s.heap c).value Val.fls)) = some _ :=
      List.find?_eq_some_iff_append.2 ⟨by simp [h2], pre, post, h1, fun x hx => by simpa using h3 x hx⟩
    rw [this]
  | absent e f =>
    rw [if_neg e]
    have : ((s.heap t).children.find? fun c => lower (s.heap c).rt == lower k && (Val.fls == Val.fls || Val.pyEq (s.heap c).value Val.fls)) = none :=
      List.find?_eq_none.2 fun x hx => by simpa using f x hx
    rw [this]

/-- What a term shows under a name is determined. -/
theorem ItemIs.unique {h : Nat → Obj} {t : Nat} {k : Str} {r r' : Option Nat} (a : ItemIs h t k r) (b : ItemIs h t k r') : r = r' := by
  cases a with
  | own e =>
    cases b with
    | own => rfl
    | child e' => exact absurd e e'
    | absent e' => exact absurd e e'
  | child e f =>
    obtain ⟨pre, post, h1, h2, h3⟩ := f
    cases b with
    | own e' => exact absurd e' e
    | child _ f' =>
      obtain ⟨pre', post', g1, g2, g3⟩ := f'
      rw [first_unique (h1.symm.trans g1) h2 h3 g2 g3]
    | absent _ f' => exact absurd h2 (f' _ (by rw [h1]; simp))
  | absent e f =>
    cases b with
    | own e' => exact absurd e' e
    | child _ f' =>
      obtain ⟨pre', post', g1, g2, g3⟩ := f'
      exact absurd g2 (f _ (by rw [g1]; simp))
    | absent => rfl

/-- A term shows something or nothing under every name. -/
theorem itemIs_total (h : Nat → Obj) (t : Nat) (k : Str) : ∃ r, ItemIs h t k r := by
  by_cases e : lower k = lower (h t).tvn
  · exact ⟨_, .own e⟩
  · cases hf : (h t).children.find? fun c => decide (lower (h c).rt = lower k) with
    | none => exact ⟨_, .absent e fun c hc => by simpa using List.find?_eq_none.1 hf c hc⟩
    | some c =>
      obtain ⟨h1, pre, post, h2, h3⟩ := List.find?_eq_some_iff_append.1 hf
      exact ⟨_, .child e ⟨pre, post, h2, by simpa using h1, fun x hx => by simpa using h3 x hx⟩⟩

/-- **C64** (terms). For a name without a dot, `term[k]`, `term.get(k, dt)` and `term.get_value(k, dv)` agree: all give what the term shows
under the name, or its value; if there is nothing, the first raises `KeyError` and the others give the default. -/
theorem C64_term_partial {s : St} {t : Nat} (hc : (s.heap t).cls.isSection = false) {k : Str} (hk : '.' ∉ k) (dt : Option Nat) (dv : Val) :
    (∃ c, ItemIs s.heap t k (some c) ∧ getItem s t k = .ok (some c) ∧ termGet s t k dt = .ok (some c) ∧
        termGetValue s t k dv = .ok (s.heap c).value) ∨
      (ItemIs s.heap t k none ∧ getItem s t k = .error .keyError ∧ termGet s t k dt = .ok dt ∧ termGetValue s t k dv = .ok dv) := by
  obtain ⟨r, h⟩ := itemIs_total s.heap t k
  have hi := item_lookup hc hk h
  cases r with
  | some c =>
    have hg : getItem s t k = .ok (some c) := by unfold getItem; rw [hc]; simp [hi, bind, Except.bind, pure, Except.pure]
    exact .inl ⟨c, h, hg, by unfold termGet; rw [hg], by unfold termGetValue; rw [hg]⟩
  | none =>
    have hg : getItem s t k = .error .keyError := by unfold getItem; rw [hc]; simp [hi, bind, Except.bind]
    exact .inr ⟨h, hg, by unfold termGet; rw [hg], by unfold termGetValue; rw [hg]⟩

/-- **C64** (children). `term.find(k, value)` gives exactly the children of that name, with that value if one is asked for, in order, and
`term.find_first` the first of them. -/
theorem C64_children {s : St} {t : Nat} {k : Str} (hk : '.' ∉ k) (value : Val) :
    ∃ l, termFind s t k value = .ok l ∧ termFindFirst s t k value = .ok l.head? ∧ l.Sublist (s.heap t).children ∧
      ∀ c, c ∈ l ↔ c ∈ (s.heap t).children ∧ lower (s.heap c).rt = lower k ∧ (value = .fls ∨ Val.pyEq (s.heap c).value value = true) := by
  refine ⟨(s.heap t).children.filter fun c => lower (s.heap c).rt == lower k && (value == .fls || Val.pyEq (s.heap c).value value),
    ?_, ?_, List.filter_sublist, ?_⟩
  · simp [termFind, localName, hk, bind, Except.bind, pure, Except.pure]
  · simp only [termFindFirst, localName, hk, if_false, bind, Except.bind, pure, Except.pure, childNamed]
    rw [List.head?_filter]
  · intro c
    simp [List.mem_filter]

/-- **C64** (values of children). `term.find_first_value(k)` gives the value of the first child of that name, also if it is `None`, and
`None` if there is no such child. -/
theorem C64_first_value {s : St} {t : Nat} {k : Str} (hk : '.' ∉ k) :
    (∃ c, FirstIs (s.heap t).children (fun c => lower (s.heap c).rt = lower k) c ∧ termFindFirstValue s t k = .ok (s.heap c).value) ∨
      ((∀ c ∈ (s.heap t).children, lower (s.heap c).rt ≠ lower k) ∧ termFindFirstValue s t k = .ok .none) := by
  have e : termFindFirst s t k = .ok ((s.heap t).children.find? fun c => lower (s.heap c).rt == lower k) := by
    simp [termFindFirst, localName, hk, bind, Except.bind, pure, Except.pure, childNamed]
  unfold termFindFirstValue
  rw [e]
  cases hf : (s.heap t).children.find? fun c => lower (s.heap c).rt == lower k with
  | none => exact .inr ⟨fun c hc => by simpa using List.find?_eq_none.1 hf c hc, rfl⟩
  | some c =>
    obtain ⟨h1, pre, post, h2, h3⟩ := List.find?_eq_some_iff_append.1 hf
    exact .inl ⟨c, ⟨pre, post, h2, by simpa using h1, fun x hx => by simpa using h3 x hx⟩, rfl⟩

/-- **C64** (qualified names). A name qualified with the term's own name means the same as the bare name; with any other parent
the lookups raise `AssertionError`, also those that take a default. -/
theorem C64_qualified {s : St} {t : Nat} {p k : Str} (hp : '.' ∉ p) (hk : '.' ∉ k) (value : Val) :
    (lower p = lower (s.heap t).rt → termFind s t (dotJoin p k) value = termFind s t k value ∧
        termFindFirst s t (dotJoin p k) value = termFindFirst s t k value) ∧
      (lower p ≠ lower (s.heap t).rt → termFind s t (dotJoin p k) value = .error .assertionError ∧
        ((s.heap t).cls.isSection = false → lower (dotJoin p k) ≠ lower (s.heap t).tvn →
          ∀ dt dv, termGet s t (dotJoin p k) dt = .error .assertionError ∧ termGetValue s t (dotJoin p k) dv = .error .assertionError)) := by
  have hd : '.' ∈ dotJoin p k := by simp [dotJoin]
  have hs : splitOn '.' (dotJoin p k) = [p, k] := by
    unfold dotJoin
    rw [splitOn_append_sep hp, splitOn_not_mem hk]
  have hl : localName s t (dotJoin p k) = if lower p = lower (s.heap t).rt then .ok k else .error .assertionError := by
    unfold localName; rw [if_pos hd, hs]
  have hl' : localName s t k = .ok k := by unfold localName; rw [if_neg hk]
  constructor
  · intro h
    rw [if_pos h] at hl
    constructor
    · unfold termFind; rw [hl, hl']
    · unfold termFindFirst; rw [hl, hl']
  · intro h
    rw [if_neg h] at hl
    refine ⟨by unfold termFind; rw [hl]; rfl, fun hc ht dt dv => ?_⟩
    have hg : getItem s t (dotJoin p k) = .error .assertionError := by
      unfold getItem; rw [hc]
      simp [termGetItem, ht, termFindFirst, hl, bind, Except.bind]
    exact ⟨by unfold termGet; rw [hg], by unfold termGetValue; rw [hg]⟩

/-! ## Sections -/
theorem filterE_mem {α : Type} {p : α → Except Err Bool} {l r : List α} (h : filterE p l = .ok r) : ∀ a ∈ r, a ∈ l ∧ p a = .ok true := by
  induction l generalizing r with
  | nil => cases h; intro a ha; cases ha
  | cons b l ih =>
    unfold filterE at h
    obtain ⟨x, hx, h⟩ := except_bind_ok.1 h
    obtain ⟨r', hr, h⟩ := except_bind_ok.1 h
    intro a ha
    cases x with
    | false =>
      cases h
      exact ⟨List.mem_cons_of_mem _ (ih hr a ha).1, (ih hr a ha).2⟩
    | true =>
      cases h
      rcases List.mem_cons.1 ha with rfl | ha
      · exact ⟨List.mem_cons_self, hx⟩
      · exact ⟨List.mem_cons_of_mem _ (ih hr a ha).1, (ih hr a ha).2⟩

/-- Whatever a restricted search finds belongs to a section of one of the names. -/
theorem findOne_section {s : St} {term : Str} {v : Val} {sec : Option (List Str)} {l : List Nat} (h : findOne s term v sec = .ok l) :
    ∀ t ∈ l, SectionIs s.heap t sec := by
  intro t ht
  unfold findOne at h
  obtain ⟨n, g, h⟩ : ∃ n g, filterE (findTest s n v sec) g = .ok l := by
    by_cases hs : startsWith (py!"root.") (if '.' ∉ lower term then py!"root." ++ lower term else lower term) = true
    · simp only [hs, if_true] at h
      exact ⟨_, _, h⟩
    · simp only [hs] at h
      obtain ⟨g, -, h⟩ := except_bind_ok.1 h
      exact ⟨_, _, h⟩
  have ht := (filterE_mem h t ht).2
  cases sec with
  | none => trivial
  | some names =>
    unfold findTest at ht
    dsimp only at ht
    split at ht
    · cases ht
    split at ht
    · cases ht
    obtain ⟨b, -, ht⟩ := except_bind_ok.1 ht
    cases b with
    | false => cases ht
    | true =>
      simp only [Bool.not_true, Bool.false_eq_true, if_false] at ht
      obtain ⟨b, hb, ht⟩ := except_bind_ok.1 ht
      cases b with
      | false => cases ht
      | true =>
        unfold inSection at hb
        dsimp only at hb
        cases hs : (s.heap t).sec with
        | none => rw [hs] at hb; cases hb
        | some x =>
          rw [hs] at hb
          dsimp only at hb
          split at hb
          · cases hb
          obtain ⟨n, hn, hb⟩ := except_bind_ok.1 hb
          unfold sectionNameLower at hn
          cases hv : (s.heap x).value <;> rw [hv] at hn <;> try cases hn
          rename_i m
          cases hb' : names.any fun e => lower e == lower m with
          | false => rw [hb'] at hb; cases hb
          | true =>
            obtain ⟨e, he, h2⟩ := List.any_eq_true.1 hb'
            exact ⟨x, m, hs, hv, e, he, by simpa using h2⟩

theorem find_section {s : St} {term : Str} {v : Val} {sec : Option (List Str)} {l : List Nat} (h : find s term v sec = .ok l) :
    ∀ t ∈ l, SectionIs s.heap t sec := by
  intro t ht
  unfold find at h
  split at h
  · unfold findList at h
    obtain ⟨ls, hls, h⟩ := except_bind_ok.1 h
    cases h
    obtain ⟨r, hr, htr⟩ := List.mem_flatten.1 ht
    obtain ⟨e, -, he⟩ := mapM_mem hls r hr
    exact findOne_section he t htr
  · exact findOne_section h t ht

/-- **C64** (sections stay inside). Whatever `section.find_first`, `section.get_term` or `section[name]` gives, in any state and for any
name, belongs to a section with this section's name. -/
theorem C64_inside {s : St} {x t : Nat} {n term : Str} {v : Val} (hx : (s.heap x).value = .str n)
    (h : sectionFindFirst s x term v = .ok (some t)) :
    ∃ y m, (s.heap t).sec = some y ∧ (s.heap y).value = .str m ∧ lower m = lower n := by
  unfold sectionFindFirst at h
  rw [hx] at h
  obtain ⟨rest, hf⟩ := ((C13_first s term v (some [n])).1 t).1 h
  obtain ⟨y, m, h1, h2, e, he, h3⟩ := find_section hf t List.mem_cons_self
  obtain rfl := List.mem_singleton.1 he
  exact ⟨y, m, h1, h2, h3.symm⟩

/-- **C64** (sections). For a qualified name without derived terms, `section.find_first` gives the first of the terms searched that meets
the search and belongs to a section with this section's name; `None` exactly if there is none. -/
theorem C64_section {s : St} {x : Nat} {n : Str} (hx : (s.heap x).value = .str n) {q : Str × Str} (hA : PlainPart q.1) (hB : PlainPart q.2)
    (hd : s.derived.get? (lower (dotJoin q.1 q.2)) = none) {l : List Nat} (hl : searched s q.1 = .ok l)
    (ht : ∀ t ∈ l, Searchable s.heap t) (value : Val) :
    (∃ t, FirstIs l (Meets s.heap q value (some [n])) t ∧ sectionFindFirst s x (dotJoin q.1 q.2) value = .ok (some t)) ∨
      ((∀ t ∈ l, ¬ Meets s.heap q value (some [n]) t) ∧ sectionFindFirst s x (dotJoin q.1 q.2) value = .ok none) := by
  classical
  have hf := C11_qualified hA hB hd hl ht value (some [n])
  have e : sectionFindFirst s x (dotJoin q.1 q.2) value = .ok (l.find? fun t => decide (Meets s.heap q value (some [n]) t)) := by
    unfold sectionFindFirst findFirst
    rw [hx]
    dsimp only
    rw [hf]
    show Except.ok _ = _
    rw [List.head?_filter]
  cases hh : l.find? fun t => decide (Meets s.heap q value (some [n]) t) with
  | none =>
    exact .inr ⟨fun t h => by simpa using List.find?_eq_none.1 hh t h, by rw [e, hh]⟩
  | some t =>
    obtain ⟨h1, pre, post, h2, h3⟩ := List.find?_eq_some_iff_append.1 hh
    exact .inl ⟨t, ⟨pre, post, h2, by simpa using h1, fun y hy => by simpa using h3 y hy⟩, by rw [e, hh]⟩

/-- **C64** (sections, defaults). `section[name]` gives what `find_first` gives, `None` included; `section.get_value` gives its value, or
the default if there is none. -/
theorem C64_section_values {s : St} {x : Nat} (hx : (s.heap x).cls.isSection = true) (k : Str) (dv : Val) :
    getItem s x k = sectionFindFirst s x k ∧
      (∀ t, sectionFindFirst s x k = .ok (some t) → termGetValue s x k dv = .ok (s.heap t).value) ∧
      (sectionFindFirst s x k = .ok none → termGetValue s x k dv = .ok dv) := by
  have hg : getItem s x k = sectionFindFirst s x k := by unfold getItem; rw [hx]; rfl
  exact ⟨hg, fun t h => by unfold termGetValue; rw [hg, h], fun h => by unfold termGetValue; rw [hg, h]⟩

/-! ## Examples -/
/-- A section with two terms of the same name, the second with a property, and another section. -/
def lookRows : List (List Str) :=
  [[py!"Creator", py!"Ann"], [py!"Section", py!"Contacts", py!"Email"], [py!"Creator", py!"Bob"], [py!"Creator", py!"Eve", py!"e@x"],
   [py!"Section", py!"Other"], [py!"Title", py!"T"]]
/-- After reading it. -/
def lookDoc : St := exParse lookRows

example : (lookDoc.heap 2).value = .str (py!"Contacts") ∧ sectionFindFirst lookDoc 2 (py!"Creator") = .ok (some 3) ∧
    sectionFindFirst lookDoc 2 (py!"Creator") (.str (py!"Eve")) = .ok (some 4) ∧ sectionFindFirst lookDoc 2 (py!"Title") = .ok none := by
  decide +kernel
example : lookDoc.derived.get? (lower (dotJoin (py!"Root") (py!"Creator"))) = none ∧ searched lookDoc (py!"Root") = .ok [1, 3, 4, 7] := by
  decide +kernel
example : ItemIs lookDoc.heap 4 (py!"email") (some 5) :=
  have hc : (lookDoc.heap 4).children = [5] := by decide +kernel
  .child (by decide +kernel) ⟨[], [], hc, by decide +kernel, fun _ h => by cases h⟩
example : getItem lookDoc 4 (py!"EMAIL") = .ok (some 5) ∧ termGetValue lookDoc 4 (py!"email") = .ok (.str (py!"e@x")) ∧
    termGet lookDoc 4 (py!"url") (some 1) = .ok (some 1) ∧ termFindFirst lookDoc 4 (py!"creator.email") = .ok (some 5) ∧
    termGet lookDoc 4 (py!"other.email") (some 1) = .error .assertionError := by decide +kernel

example : termFindFirstValue lookDoc 4 (py!"Email") = .ok (.str (py!"e@x")) ∧ termFindFirstValue lookDoc 3 (py!"Email") = .ok .none ∧
    (lookDoc.heap 4).children = [5] ∧ (lookDoc.heap 3).children = [] := by decide +kernel

/-- **C64** does not hold for `section.get`: the default is not used, since `section[name]` gives `None` instead of raising `KeyError`. -/
theorem C64_section_default_witness : sectionFindFirst lookDoc 2 (py!"Title") = .ok none ∧ termGet lookDoc 2 (py!"Title") (some 1) = .ok none := by
  decide +kernel

/-! ## C65 -/
/-- What the section finds under an unqualified name with a value. -/
theorem sectionFindFirst_plain {s : St} {x : Nat} {n : Str} (hx : (s.heap x).value = .str n) {B : Str} (hB : PlainPart B)
    (hd : s.derived.get? (lower B) = none) (hs : ∀ t ∈ s.terms, Searchable s.heap t) (v : Val) {r : Option Nat}
    (hr : match r with
      | some t => FirstIs s.terms (Meets s.heap (py!"root", B) v (some [n])) t
      | none => ∀ t ∈ s.terms, ¬ Meets s.heap (py!"root", B) v (some [n]) t) :
    sectionFindFirst s x B v = .ok r := by
  classical
  unfold sectionFindFirst findFirst
  rw [hx]
  dsimp only
  rw [C11_unqualified hB hd hs v (some [n])]
  show Except.ok _ = _
  rw [List.head?_filter]
  congr 1
  cases r with
  | none => exact List.find?_eq_none.2 fun t ht => by simpa using hr t ht
  | some t =>
    obtain ⟨pre, post, h1, h2, h3⟩ := hr
    exact List.find?_eq_some_iff_append.2 ⟨by simpa using h2, pre, post, h1, fun y hy => by simpa using h3 y hy⟩

/-- **C65** (new). `section[name] = value`, when no term of the section has that name and that value, adds one term with the name and
value at the end of the section and of the document; nothing else changes, in particular no other term of that name. -/
theorem C65_new_partial {s : St} (h : Reach (fun _ => True) s) {x : Nat} {n : Str} (hx : Registered s x n) {B : Str} (hB : PlainPart B)
    (hc : (docTermClass s (lower B)).isSection = false) (htv : lower (newTvn s x B) ∉ reservedTvn) (v : Val)
    (hd : s.derived.get? (lower B) = none) (hs : ∀ t ∈ s.terms, Searchable s.heap t)
    (hno : ∀ t ∈ s.terms, ¬ Meets s.heap (py!"root", B) v (some [n]) t) :
    setItemAny x B v s = .ok () (withTerm s x (newObj s x (docTermClass s (lower B)) B B v)) := by
  unfold setItemAny
  rw [bind_run, obj_run]
  dsimp only
  rw [if_pos hx.cls, bind_run]
  unfold getOrNewTerm
  rw [bind_run, lift_run, sectionFindFirst_plain hx.value hB hd hs v (r := none) hno]
  dsimp only
  rw [C17_new h hx hB hc htv v]
  rfl

/-- **C65** (found). `section[name] = value`, when a term of the section has that name and a value equal to the given one, gives the first
such term the value; nothing else changes. -/
theorem C65_found {s : St} {x : Nat} (hxc : (s.heap x).cls.isSection = true) {n : Str} (hx : (s.heap x).value = .str n) {B : Str}
    (hB : PlainPart B) {v : Val} (hv : v ≠ .none) (hd : s.derived.get? (lower B) = none) (hs : ∀ t ∈ s.terms, Searchable s.heap t) {t : Nat}
    (ht : FirstIs s.terms (Meets s.heap (py!"root", B) v (some [n])) t) :
    setItemAny x B v s = .ok () (withValue s t v) := by
  unfold setItemAny
  rw [bind_run, obj_run]
  dsimp only
  rw [if_pos hxc, bind_run]
  unfold getOrNewTerm
  rw [bind_run, lift_run, sectionFindFirst_plain hx hB hd hs v (r := some t) ht]
  dsimp only
  rw [if_pos hv]
  rfl

example : Reach (fun _ => True) lookDoc := exParse_reach _ trivial
example : Registered lookDoc 2 (py!"Contacts") := ⟨by decide +kernel, by decide +kernel, by decide +kernel, by decide +kernel⟩
theorem lookDoc_searchable : ∀ t ∈ lookDoc.terms, Searchable lookDoc.heap t := by
  have e : ∀ t ∈ lookDoc.terms, ((lookDoc.heap t).sec.any fun x => match (lookDoc.heap x).value with | .str _ => true | _ => false) = true := by
    decide +kernel
  intro t ht
  have := e t ht
  cases hs : (lookDoc.heap t).sec with
  | none => rw [hs] at this; cases this
  | some x =>
    rw [hs] at this
    refine ⟨fun h => (by rw [hs] at h; cases h), fun y hy => ?_⟩
    rw [hs] at hy; cases hy
    simp only [Option.any_some] at this
    cases hv : (lookDoc.heap x).value <;> simp [hv] at this ⊢
example : (docTermClass lookDoc (py!"creator")).isSection = false ∧ lower (newTvn lookDoc 2 (py!"Creator")) ∉ reservedTvn ∧
    lookDoc.derived.get? (py!"creator") = none ∧ lookDoc.next = 8 := by decide +kernel

/-- **C65** does not hold: after `section['Creator'] = 'Joe'` the section still shows the old value, and there is one more term. -/
theorem C65_map_witness :
    let s' := after (setItemAny 2 (py!"Creator") (.str (py!"Joe"))) lookDoc
    (setItemAny 2 (py!"Creator") (.str (py!"Joe")) lookDoc).val = .ok () ∧ termGetValue s' 2 (py!"Creator") = .ok (.str (py!"Bob")) ∧
    find lookDoc (py!"Creator") .fls (some [py!"Contacts"]) = .ok [3, 4] ∧ find s' (py!"Creator") .fls (some [py!"Contacts"]) = .ok [3, 4, 8] := by
  decide +kernel

/-- **C65**: the value of a new term is stripped, but not the value that is looked for. Each assignment of the same text with a blank at
its end adds another term. -/
theorem C65_blanks_witness :
    let s1 := after (setItemAny 2 (py!"Creator") (.str (py!"Joe "))) lookDoc
    let s2 := after (setItemAny 2 (py!"Creator") (.str (py!"Joe "))) s1
    find s1 (py!"Creator") .fls (some [py!"Contacts"]) = .ok [3, 4, 8] ∧ find s2 (py!"Creator") .fls (some [py!"Contacts"]) = .ok [3, 4, 8, 9] ∧
    (s2.heap 8).value = .str (py!"Joe") ∧ (s2.heap 9).value = .str (py!"Joe") := by
  decide +kernel

/-- **C65**: assigning `None` does not remove a term, and adds one without a value. -/
theorem C65_none_witness :
    let s' := after (setItemAny 2 (py!"Creator") .none) lookDoc
    (setItemAny 2 (py!"Creator") .none lookDoc).val = .ok () ∧ find s' (py!"Creator") .fls (some [py!"Contacts"]) = .ok [3, 4, 8] ∧
    (s'.heap 8).value = .none := by
  decide +kernel

/-- Assigning a value that is there changes nothing. -/
example : (setItemAny 2 (py!"Creator") (.str (py!"Eve")) lookDoc).val = .ok () ∧
    find (after (setItemAny 2 (py!"Creator") (.str (py!"Eve"))) lookDoc) (py!"Creator") .fls (some [py!"Contacts"]) = .ok [3, 4] := by decide +kernel

end Metatab
