import Verif.Props.Inherited
import Verif.Lemmas.Reach
/-! # C11, C12 in every reachable document

A search that does not ask for a section only needs the terms it looks at to have one. Every call lists a term only after checking that, and
no call takes a section away again, except an assignment of `None`. -/
namespace Metatab
open Py _root_.Spec

theorem reach_searchable {allow : Op → Prop} {s : St} (h : Reach allow s) (hU : ∀ op, allow op → op.keepsSection) :
    ∀ t ∈ s.terms, SearchableBy s.heap none t := by
  intro t ht
  refine ⟨fun e => ?_, fun k => absurd rfl k⟩
  rcases h.sited hU t ht with hs | hs
  · rw [e] at hs; cases hs
  · obtain ⟨a, b⟩ := joinLc_root_root.1 hs
    exact ⟨a, .inl b⟩

theorem strip_sublist (a : Str) : (strip a).Sublist a := by
  unfold strip rstrip lstrip
  have h1 := List.dropWhile_sublist isSpace (l := a)
  have h2 := (List.dropWhile_sublist isSpace (l := (a.dropWhile isSpace).reverse)).reverse
  rw [List.reverse_reverse] at h2
  exact h2.trans h1

open Classical in
/-- **C11** in every document made by any sequence of calls that does not set the section of a term to `None`: a search for a root-level name
without derived names, with any value filter, returns exactly the listed terms that meet it, in order and each once. It raises nothing. -/
theorem C11_always {allow : Op → Prop} {s : St} (h : Reach allow s) (hU : ∀ op, allow op → op.keepsSection) {A B : Str}
    (hA : lower A = py!"root") (hB : PlainPart B) (value : Val) :
    (s.derived.get? (lower B) = none → find s B value none = .ok (s.terms.filter fun t => Meets s.heap (py!"root", B) value none t)) ∧
    (s.derived.get? (lower (dotJoin A B)) = none →
      find s (dotJoin A B) value none = .ok (s.terms.filter fun t => Meets s.heap (A, B) value none t)) ∧
    s.terms.Nodup := by
  have hs := reach_searchable h hU
  have hAp : PlainPart A := by
    obtain ⟨n1, n2, n3⟩ : PlainPart (lower A) := by rw [hA]; exact ⟨by decide, by decide, by decide⟩
    exact ⟨by simpa using n1, by simpa using n2, (by
      have h4 : A.length = 4 := by rw [← length_lower, hA]; rfl
      have h5 : (strip A).length = 4 := by rw [← length_lower, ← strip_lower, hA]; rfl
      exact (strip_sublist A).eq_of_length (by rw [h4, h5]))⟩
  refine ⟨fun hd => ?_, fun hd => ?_, (h.wf (F := False) fun f => f.elim).termsNodup⟩
  · unfold find; rw [hd]
    simp only
    rw [findOne_unqualified hB]
    exact findOne_by (q := (py!"root", B)) (show PlainPart (py!"root") from ⟨by decide, by decide, by decide⟩) hB (l := s.terms) rfl hs value
  · unfold find; rw [hd]
    exact findOne_by (q := (A, B)) hAp hB (l := s.terms) (if_pos hA) hs value

open Classical in
/-- **C12** in every document made by any sequence of calls that does not set the section of a term to `None`: a search for a root-level type
returns, each once, exactly the listed terms of that type and of the types recorded as inheriting from it, when those are root-level types. -/
theorem C12_always {allow : Op → Prop} {s : St} (h : Reach allow s) (hU : ∀ op, allow op → op.keepsSection)
    (hord : ∀ l, (s.env.setOrd l).Perm l) {B : Str} (hB : PlainPart B) (hst : B ≠ py!"*")
    (hroot : ∀ n, s.superTerms.get? n = some (dotJoin (py!"root") (lower B)) → ∃ C, PlainPart C ∧ C ≠ py!"*" ∧ n = dotJoin (py!"root") C)
    (hself : s.superTerms.get? (dotJoin (py!"root") (lower B)) ≠ some (dotJoin (py!"root") (lower B))) (value : Val) :
    ∃ r, find s (dotJoin (py!"root") B) value none = .ok r ∧ r.Nodup ∧
      ∀ t, t ∈ r ↔ t ∈ s.terms ∧ ∃ C, (C = B ∨ s.superTerms.get? (dotJoin (py!"root") C) = some (dotJoin (py!"root") (lower B))) ∧
        Meets s.heap (py!"root", C) value none t := by
  have hlow : lower (dotJoin (py!"root") B) = dotJoin (py!"root") (lower B) := by simp [dotJoin]; decide
  have hs := reach_searchable h hU
  have hnd : s.terms.Nodup := (h.wf (F := False) fun f => f.elim).termsNodup
  have hrp : PlainPart (py!"root") := ⟨by decide, by decide, by decide⟩
  cases hd : s.derived.get? (lower (dotJoin (py!"root") B)) with
  | none =>
    refine ⟨_, (C11_always h hU (A := py!"root") (by decide) hB value).2.1 hd, hnd.filter _, fun t => ?_⟩
    rw [List.mem_filter, (@decide_eq_true_iff _ (Classical.propDecidable _))]
    constructor
    · rintro ⟨h1, h2⟩; exact ⟨h1, B, .inl rfl, h2⟩
    · rintro ⟨h1, C, rfl | hC, h2⟩
      · exact ⟨h1, h2⟩
      · obtain ⟨l, hl, -⟩ := (C39_always h _ _).1.2 hC
        rw [← hlow, hd] at hl; cases hl
  | some l =>
    have hmem : ∀ x, x ∈ l ↔ s.superTerms.get? x = some (dotJoin (py!"root") (lower B)) := by
      intro x
      rw [← (C39_always h x _).1, ← hlow, hd]
      constructor
      · intro hx; exact ⟨l, rfl, hx⟩
      · rintro ⟨l', e, hx⟩; cases e; exact hx
    have hlnd : l.Nodup := (C39_always h [] _).2.1 l hd
    have hl : ∀ x ∈ l, ∃ C, PlainPart C ∧ C ≠ py!"*" ∧ x = dotJoin (py!"root") C := fun x hx => hroot x ((hmem x).1 hx)
    obtain ⟨cs, hcl, hcs⟩ : ∃ cs : List (Str × Str), l = cs.map (fun n => dotJoin n.1 n.2) ∧ ∀ n ∈ cs,
        n.1 = py!"root" ∧ PlainPart n.2 ∧ n.2 ≠ py!"*" := by
      clear hd hmem hlnd
      induction l with
      | nil => exact ⟨[], rfl, by simp⟩
      | cons x l ih =>
        obtain ⟨cs, e, hn⟩ := ih fun y hy => hl y (List.mem_cons_of_mem _ hy)
        obtain ⟨C, hC, hs, hx⟩ := hl x List.mem_cons_self
        refine ⟨(py!"root", C) :: cs, by rw [List.map_cons, ← e, ← hx], fun n hn' => ?_⟩
        rcases List.mem_cons.1 hn' with rfl | hn'
        · exact ⟨rfl, hC, hs⟩
        · exact hn n hn'
    have hin : ∀ n ∈ cs, s.superTerms.get? (dotJoin (py!"root") n.2) = some (dotJoin (py!"root") (lower B)) := by
      intro n hn
      have : dotJoin n.1 n.2 ∈ l := by rw [hcl]; exact List.mem_map_of_mem hn
      rw [(hcs n hn).1] at this
      exact (hmem _).1 this
    have hlw : ∀ n ∈ cs, lower n.2 = n.2 := by
      intro n hn
      have := ((C39_always h _ _).2.2 (hin n hn)).1
      have e : lower (dotJoin (py!"root") n.2) = dotJoin (py!"root") (lower n.2) := by simp [dotJoin]; decide
      rw [e] at this
      exact (dotJoin_left (a := py!"root") (p := py!"root") (by decide) (by decide) this).2
    have hdist : ((py!"root", B) :: cs).Pairwise fun a b : Str × Str => ¬ (lower a.1 = lower b.1 ∧ lower a.2 = lower b.2) := by
      refine List.pairwise_cons.2 ⟨fun n hn ⟨_, e⟩ => ?_, ?_⟩
      · rw [hlw n hn] at e
        have := hin n hn
        rw [← show lower B = n.2 from e] at this
        exact hself this
      · rw [hcl] at hlnd
        refine (List.pairwise_map.1 hlnd).imp_of_mem fun {a b} ha hb hab e => hab ?_
        rw [hlw a ha, hlw b hb] at e
        rw [(hcs a ha).1, (hcs b hb).1, e.2]
    obtain ⟨r, r1, r2, r3⟩ := find_derived (q := (py!"root", B)) (names := cs) (sec := none) (cand := fun _ => s.terms)
      (by rw [hd, hcl]) hord
      (by
        intro n hn
        rcases List.mem_cons.1 hn with rfl | hn
        · exact ⟨hrp, hB, show py!"root" ≠ py!"*" by decide, hst⟩
        · obtain ⟨a, b, c⟩ := hcs n hn
          rw [a]; exact ⟨hrp, b, by decide, c⟩)
      hdist
      (by
        intro n hn
        have : n.1 = py!"root" := by
          rcases List.mem_cons.1 hn with rfl | hn
          · rfl
          · exact (hcs n hn).1
        refine ⟨?_, hnd, hs⟩
        rw [this]; rfl)
      value
    refine ⟨r, r1, r2, fun t => ?_⟩
    rw [r3]
    constructor
    · rintro ⟨n, hn, h1, h2⟩
      rcases List.mem_cons.1 hn with rfl | hn
      · exact ⟨h1, B, .inl rfl, h2⟩
      · refine ⟨h1, n.2, .inr (hin n hn), ?_⟩
        rw [← (hcs n hn).1]; exact h2
    · rintro ⟨h1, C, rfl | hC, h2⟩
      · exact ⟨_, List.mem_cons_self, h1, h2⟩
      · have hx := (hmem _).2 hC
        rw [hcl] at hx
        obtain ⟨n, hn, e⟩ := List.mem_map.1 hx
        rw [(hcs n hn).1] at e
        have := (dotJoin_left (a := py!"root") (p := py!"root") (by decide) (by decide) e).2
        refine ⟨n, List.mem_cons_of_mem _ hn, h1, ?_⟩
        rw [show n = (py!"root", C) from Prod.ext (hcs n hn).1 this]; exact h2

/-- The document of `C12_declared` is reachable, and its search finds the term of the derived type. -/
theorem inh_reach : Reach Op.keepsSection inhDoc :=
  .step (.parse inhFiles 3 (py!"m.csv") [[py!"Declare", py!"a.csv"], [py!"Sql", py!"x"]]) (.new exEnv _) trivial trivial

example : ∃ r, find inhDoc (py!"root.Datafile") = .ok r ∧ 11 ∈ r := by
  have env : inhDoc.env = exEnv := by
    exact (after_steps (tri_op (F := False) (op := .parse inhFiles 3 (py!"m.csv") [[py!"Declare", py!"a.csv"], [py!"Sql", py!"x"]]) trivial fun f => f.elim)
      (newDoc_wf False exEnv _)).ext.env
  have hsup : inhDoc.superTerms = [(py!"root.sql", py!"root.datafile")] := by decide +kernel
  obtain ⟨r, h1, -, h3⟩ := C12_always inh_reach (fun _ h => h) (by rw [env]; exact fun l => .refl l) (B := py!"Datafile")
    ⟨by decide, by decide, by decide⟩ (by decide)
    (by
      intro n hn
      rw [hsup] at hn
      by_cases e : n = py!"root.sql"
      · exact ⟨py!"sql", ⟨by decide, by decide, by decide⟩, by decide, e⟩
      · rw [Dict.get?, if_neg (fun k => e k.symm)] at hn; cases hn)
    (by rw [hsup]; decide) .fls
  refine ⟨r, h1, (h3 11).2 ⟨by decide +kernel, py!"sql", .inr (by rw [hsup]; decide), ?_⟩⟩
  exact ⟨by decide +kernel, ⟨.inr (by decide +kernel), .inr (by decide +kernel)⟩, trivial, trivial⟩

/-- A document with a title whose section is then set to `None`. -/
def unsecDoc : St := after (Op.setSection 1 none).run (exParse [[py!"Title", py!"a"]])

/-- The calls must not set a section to `None`: every search of the document then raises AssertionError. -/
theorem C11_unsection_witness : Reach (fun _ => True) unsecDoc ∧ find unsecDoc (py!"Root.Title") = .error .assertionError ∧
    find unsecDoc (py!"Root.Other") = .error .assertionError ∧ find (exParse [[py!"Title", py!"a"]]) (py!"Root.Title") = .ok [1] := by
  refine ⟨.step (.setSection 1 none) (.step (.parse noFiles 3 (py!"doc.csv") [[py!"Title", py!"a"]]) (.new exEnv _) trivial trivial) trivial ⟨?_, fun x e => by cases e⟩,
    by decide +kernel, by decide +kernel, by decide +kernel⟩
  show 1 < _
  decide +kernel

end Metatab
