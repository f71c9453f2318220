import Verif.Lemmas.PlainFile
import Verif.Lemmas.Reach
import Verif.Spec.Plain
/-! Documents made of plain rows, from the empty document to the end of loading. -/
namespace Metatab
open Py

/-- A class registry in which only `Root.Section` and `Root.Root` have section classes. -/
structure PlainClasses (classes : Dict Cls) : Prop where
  sec : classes.get? (py!"root.section") = some .section
  only : ∀ n c, classes.get? n = some c → c.isSection = true → n = py!"root.section" ∨ n = py!"root.root"

theorem plainClasses_init : PlainClasses initClasses := by
  refine ⟨rfl, ?_⟩
  intro n c h _
  unfold initClasses at h
  simp only [Dict.get?_cons, Dict.get?_nil] at h
  split at h
  · next e => exact .inl e.symm
  · split at h
    · next e => exact .inr e.symm
    · cases h

theorem initDecl_tvn (n : Str) : lower (declProp initDeclTerms n (py!"termvaluename") (py!"@value")) ∉ reservedTvn := by
  unfold declProp initDeclTerms
  simp only [Dict.get?_cons, Dict.get?_nil]
  split
  · next t h =>
    split at h
    · cases h; decide
    split at h
    · cases h; decide
    split at h
    · cases h; decide
    split at h
    · cases h; decide
    split at h
    · cases h; decide
    split at h
    · cases h; decide
    · cases h
  · decide

theorem parserSuperTerms_new (env : Env) (classes : Dict Cls) : parserSuperTerms (newDoc env classes) = [] := by
  unfold parserSuperTerms newDoc initP
  simp only [ne_eq, not_true, if_false]
  decide

/-- A new document is ready to read plain rows. -/
theorem pinv_new {F : Prop} {env : Env} {classes : Dict Cls} (h : PlainClasses classes) : PInv F (newDoc env classes) := by
  have hcls : ∀ n, parserTermClass (newDoc env classes) n = (classes.get? (lower n)).getD .term := by
    intro n
    unfold parserTermClass
    rw [parserSuperTerms_new]
    show (match classes.get? (lower n) with | some c => c | none => _) = _
    cases classes.get? (lower n) <;> rfl
  refine ⟨newDoc_wf F env classes, ⟨⟨initDecl_tvn, ?_⟩, ?_, ?_⟩, rfl, rfl, rfl, (show GoodName (py!"root") from ⟨by decide, by decide, by decide, by decide⟩), ?_, ?_, ?_, ?_⟩
  · intro n x
    show lower (declProp [] n (py!"termvaluename") ((newDoc env classes).heap x).defTvn) ∉ _
    have : ((newDoc env classes).heap x).defTvn = py!"@value" := by unfold newDoc; simp only; split <;> rfl
    rw [this]; unfold declProp; simp only [Dict.get?_nil]; decide
  · intro n hn
    rw [hcls] at hn
    cases hg : classes.get? (lower n) with
    | none => rw [hg] at hn; cases hn
    | some c => rw [hg] at hn; exact h.only _ _ hg hn
  · show synonyms initDeclTerms = []
    decide
  · intro _ m hm; cases hm
  · rw [hcls, show lower (py!"root.section") = py!"root.section" by decide, h.sec]; rfl
  · intro k x hx hk
    exfalso
    simp only [newDoc, Dict.get?_cons, Dict.get?_nil] at hx
    split at hx
    · next e => exact hk e.symm
    · cases hx
  · intro k d hd; cases hd

/-- Loading a file of plain rows into a new document. -/
theorem parse_plain {env : Env} {classes : Dict Cls} (hcl : PlainClasses classes) {rows : List (List Str)} {s' : St}
    (h : PlainRows (newDoc env classes) rows s') (files : Files) (fuel : Nat) (path : Str) :
    parseRows files (fuel + 1) path rows (newDoc env classes) = .ok () (after finishLoad s') := by
  unfold parseRows
  have e0 : ({ newDoc env classes with p := initP (newDoc env classes).root } : St) = newDoc env classes := rfl
  simp only [bind_run, modify_run, e0, gen_succ]
  obtain ⟨ls', e⟩ := h.run (F := True) (files := files) (sub := included files true fuel) (dir := dirname path) (ref := path) (pinv_new hcl)
    (newDoc env classes).root
  have := e []
  rw [List.append_nil] at this
  rw [this]
  simp only [genRows, pure_run]
  rfl

/-- Rows read later leave what was read before: objects keep their names, values, places and sections, and lists only grow at their
end. -/
structure Later (s s' : St) : Prop where
  next : s.next ≤ s'.next
  terms : s.terms <+: s'.terms
  root : s'.root = s.root
  obj : ∀ j, j < s.next → (s'.heap j).pt = (s.heap j).pt ∧ (s'.heap j).rt = (s.heap j).rt ∧ (s'.heap j).value = (s.heap j).value ∧
    (s'.heap j).parent = (s.heap j).parent ∧ (s'.heap j).args = (s.heap j).args ∧ (s'.heap j).tvn = (s.heap j).tvn ∧
    (s'.heap j).cpt = (s.heap j).cpt
  sec : ∀ j, j < s.next → (s.heap j).cls.isSection = false → (s'.heap j).sec = (s.heap j).sec
  cls : ∀ j, j < s.next → (s'.heap j).cls = (s.heap j).cls
  children : ∀ j, j < s.next → (s.heap j).children <+: (s'.heap j).children
  secTerms : ∀ j, j < s.next → (s.heap j).terms <+: (s'.heap j).terms

theorem Later.refl (s : St) : Later s s :=
  ⟨Nat.le_refl _, List.prefix_refl _, rfl, fun _ _ => ⟨rfl, rfl, rfl, rfl, rfl, rfl, rfl⟩, fun _ _ _ => rfl, fun _ _ => rfl,
    fun _ _ => List.prefix_refl _, fun _ _ => List.prefix_refl _⟩

theorem Later.trans {a b c : St} (h : Later a b) (k : Later b c) : Later a c := by
  have up : ∀ {j}, j < a.next → j < b.next := fun hj => Nat.lt_of_lt_of_le hj h.next
  refine ⟨Nat.le_trans h.next k.next, h.terms.trans k.terms, k.root.trans h.root, ?_, ?_, ?_, ?_, ?_⟩
  · intro j hj
    obtain ⟨a1, a2, a3, a4, a5, a6, a7⟩ := h.obj j hj
    obtain ⟨b1, b2, b3, b4, b5, b6, b7⟩ := k.obj j (up hj)
    exact ⟨b1.trans a1, b2.trans a2, b3.trans a3, b4.trans a4, b5.trans a5, b6.trans a6, b7.trans a7⟩
  · intro j hj hc
    exact (k.sec j (up hj) (by rw [h.cls j hj]; exact hc)).trans (h.sec j hj hc)
  · intro j hj; exact (k.cls j (up hj)).trans (h.cls j hj)
  · intro j hj; exact (h.children j hj).trans (k.children j (up hj))
  · intro j hj; exact (h.secTerms j hj).trans (k.secTerms j (up hj))

theorem later_addTerm {s : St} {o : Obj} {p r : Str} {q : Nat} : Later s (addTerm s o p r q) := by
  refine ⟨Nat.le_succ _, ?_, rfl, ?_, ?_, ?_, ?_, ?_⟩
  · show s.terms <+: (if _ then _ else _)
    split
    · exact List.prefix_append _ _
    · exact List.prefix_refl _
  all_goals (intro j hj; rw [addTerm_heap_old hj])
  · exact ⟨rfl, rfl, rfl, rfl, rfl, rfl, rfl⟩
  · intro _; rfl
  · simp only; split
    · exact List.prefix_append _ _
    · exact List.prefix_refl _
  · simp only; split
    · exact List.prefix_append _ _
    · exact List.prefix_refl _

theorem later_argsEffect {t : Nat} : ∀ {vs : List Str} {k : Nat} {s : St}, Later s (argsEffect t k vs s)
  | [], _, s => Later.refl s
  | v :: vs, k, s => by
    refine Later.trans (b := argEffect t k v s) ?_ (later_argsEffect (vs := vs) (k := k + 1))
    unfold argEffect; split
    · exact Later.refl s
    · exact later_addTerm

theorem later_termEffect {p r : Str} {rest : List Str} {s : St} : Later s (termEffect p r rest s) :=
  later_addTerm.trans later_argsEffect

theorem later_sectionEffect {G F : Prop} {s : St} (h : PInvG G F s) {c : Str} {rest : List Str} (hc : PlainSec c rest) :
    Later s (sectionEffect rest s) := by
  refine ⟨Nat.le_succ _, List.prefix_refl _, rfl, ?_, ?_, ?_, ?_, ?_⟩
  all_goals (intro j hj; rw [sectionEffect_heap]; simp only [if_neg (Nat.ne_of_lt hj)])
  · simp only [and_self]
  · intro hcl
    rw [if_neg]
    intro e
    obtain ⟨-, h2, -⟩ := secOf_ok h hc
    rw [if_neg (by rw [← e]; exact Nat.ne_of_lt hj), ← e, hcl] at h2
    cases h2
  · exact List.prefix_refl _
  · exact List.prefix_refl _

theorem later_headerEffect {s : St} {c : Cls} {rest : List Str} : Later s (headerEffect c rest s) := by
  refine ⟨Nat.le_succ _, List.prefix_refl _, rfl, ?_, ?_, ?_, ?_, ?_⟩
  all_goals (intro j hj; unfold headerEffect; simp only [if_neg (Nat.ne_of_lt hj)])
  · split <;> exact ⟨rfl, rfl, rfl, rfl, rfl, rfl, rfl⟩
  · intro _; split <;> rfl
  · split <;> rfl
  · split <;> exact List.prefix_refl _
  · split <;> exact List.prefix_refl _

theorem PlainRow.later {F : Prop} {s s' : St} {row : List Str} (h : PInv F s) (hr : PlainRow s row s') : Later s s' := by
  cases hr with
  | noise => exact Later.refl s
  | term hc => exact later_termEffect
  | «section» hc => exact later_sectionEffect h hc
  | header hc => exact later_headerEffect

theorem PlainRows.later {F : Prop} {s s' : St} {rows : List (List Str)} (h : PInv F s) (hr : PlainRows s rows s') : Later s s' := by
  induction hr with
  | nil => exact Later.refl _
  | cons hr _ ih => exact (hr.later h).trans (ih (hr.inv h))

theorem later_finish (s : St) : Later s (after finishLoad s) := by
  refine ⟨Nat.le_refl _, List.prefix_refl _, rfl, fun _ _ => ⟨rfl, rfl, rfl, rfl, rfl, rfl, rfl⟩, fun _ _ _ => rfl, fun _ _ => rfl,
    fun _ _ => List.prefix_refl _, fun _ _ => List.prefix_refl _⟩

theorem PlainRows.append {s s1 s2 : St} {a b : List (List Str)} (h : PlainRows s a s1) (k : PlainRows s1 b s2) : PlainRows s (a ++ b) s2 := by
  induction h with
  | nil => exact k
  | cons hr _ ih => exact .cons hr (ih k)

end Metatab

namespace Metatab
open Py Spec

theorem splitTermLower_of_names {c p r : Str} (h : cellNames c = some (p, r)) :
    splitTermLower c = .ok (if p = [] then ELIDED else p, r) := by
  unfold cellNames at h
  split at h
  · next r' hs =>
    have hd : '.' ∉ c := by
      intro hm
      have := length_splitOn '.' c
      rw [hs] at this
      have := List.count_pos_iff.2 hm
      simp_all
    have : c = r' := by rw [splitOn_not_mem hd] at hs; simpa using hs
    cases h
    unfold splitTermLower; rw [splitTerm_nodot hd, this]; rfl
  · next a b hs =>
    obtain ⟨rfl, ha, hb⟩ := split_pair hs
    cases h
    unfold splitTermLower; rw [splitTerm_dot ha hb]
    simp only [bind, Except.bind, pure, Except.pure, lower_eq_nil]
    split <;> rfl
  · cases h

theorem skipRow_head {c : Str} {rest : List Str} : skipRow (c :: rest) = true ↔ strip c = [] ∨ (strip c).head? = some '#' := by
  show (decide (strip c = []) || startsWith (py!"#") (strip c)) = true ↔ _
  rw [Bool.or_eq_true, decide_eq_true_eq]
  unfold startsWith
  cases strip c with
  | nil => simp
  | cons a l =>
    simp only [List.isPrefixOf, Bool.and_true, beq_iff_eq, reduceCtorEq, List.head?_cons, Option.some.injEq, false_or]
    exact eq_comm

theorem skipRow_of {c : Str} (h : ¬ (strip c = [] ∨ (strip c).head? = some '#')) : skipRow [c] = false := by
  cases hb : skipRow [c] with
  | false => rfl
  | true => exact absurd (skipRow_head.1 hb) h

theorem skipRow_noise {c : Str} {rest : List Str} (h : strip c = [] ∨ (strip c).head? = some '#') : skipRow (c :: rest) = true :=
  skipRow_head.2 h

theorem plainName_of {c p r : Str} (h : splitTermLower c = .ok (p, r)) (ho : ordinary r = true) : PlainName r := by
  obtain ⟨-, -, h2, -, h4, -, h6⟩ := splitTermLower_cases h
  unfold ordinary at ho
  simp only [Bool.and_eq_true, decide_eq_true_eq, Bool.not_eq_true', List.contains_eq_mem, decide_eq_false_iff_not, Option.isNone_iff_eq_none] at ho
  exact ⟨⟨ho.1.1, h2, h4, h6⟩, fun hm => ho.1.2 (List.mem_append_left [py!"synonym", py!"declareterm", py!"declaresection",
    py!"declarevalueset"] (show r ∈ [py!"section", py!"root", py!"header", py!"include", py!"declare", py!"<elided_term>"] from hm)), ho.2⟩

theorem cols_of {cols : List Str} (h : freeColumns cols = true) : PlainCols (cols.map strip) := by
  unfold freeColumns at h
  unfold PlainCols
  simp only [Bool.not_eq_true', List.contains_eq_mem, decide_eq_false_iff_not] at h
  rw [List.map_map]
  exact h

/-- What the kind of a row tells. -/
theorem kind_cases (row : List Str) :
    (kind row = .noise ∧ skipRow row = true) ∨
    (∃ c rest, row = c :: rest ∧ skipRow [c] = false ∧
      ((kind row = .section (strip (rest.headD [])) ((rest.drop 1).map strip) ∧ PlainSec c rest) ∨
       (kind row = .header (strip (rest.headD [])) ((rest.drop 1).map strip) ∧ PlainHeader c rest) ∨
       (∃ r, kind row = .elided r ∧ splitTermLower c = .ok (ELIDED, r) ∧ PlainName r) ∨
       (∃ p r, kind row = .named p r ∧ splitTermLower c = .ok (p, r) ∧ PlainName r ∧ p ≠ r ∧ p ≠ ELIDED) ∨
       kind row = .special)) := by
  cases row with
  | nil => exact .inl ⟨rfl, rfl⟩
  | cons c rest =>
    by_cases hn : strip c = [] ∨ (strip c).head? = some '#'
    · exact .inl ⟨by unfold kind; simp only [if_pos hn], skipRow_noise hn⟩
    · right
      refine ⟨c, rest, rfl, skipRow_of hn, ?_⟩
      unfold kind
      simp only [if_neg hn]
      cases hc : cellNames c with
      | none => simp
      | some pr =>
        obtain ⟨p, r⟩ := pr
        have hs := splitTermLower_of_names hc
        simp only
        by_cases h1 : p = py!"root" ∧ r = py!"section"
        · rw [if_pos h1]
          split
          · next h => exact .inl ⟨rfl, skipRow_of hn, by rw [hs, h1.1, h1.2]; rfl, h.1, h.2.1, cols_of h.2.2⟩
          · simp
        rw [if_neg h1]
        by_cases h2 : p = py!"root" ∧ r = py!"header"
        · rw [if_pos h2]
          split
          · next h =>
            refine .inr (.inl ⟨rfl, skipRow_of hn, by rw [hs, h2.1, h2.2]; rfl, fun e => h.1 (by rw [e]; rfl), ?_, cols_of h.2.2⟩)
            have := h.2.1
            unfold freeValueName at this
            simp only [Bool.not_eq_true', List.contains_eq_mem, decide_eq_false_iff_not] at this
            exact this
          · simp
        rw [if_neg h2]
        split
        · next h =>
          split
          · next hp => exact .inr (.inr (.inl ⟨r, rfl, by rw [hs, if_pos hp], plainName_of hs h.1⟩))
          · next hp =>
            rw [if_neg hp] at hs
            exact .inr (.inr (.inr (.inl ⟨p, r, rfl, hs, plainName_of hs h.1, h.2.1, h.2.2⟩)))
        · simp

theorem kind_noise {row : List Str} (h : kind row = .noise) : skipRow row = true := by
  rcases kind_cases row with ⟨_, h'⟩ | ⟨c, rest, rfl, -, ⟨h', -⟩ | ⟨h', -⟩ | ⟨r, h', -⟩ | ⟨p, r, h', -⟩ | h'⟩
  · exact h'
  all_goals (rw [h] at h'; cases h')

theorem kind_section {row : List Str} {n : Str} {cols : List Str} (h : kind row = .section n cols) :
    ∃ c rest, row = c :: rest ∧ PlainSec c rest ∧ n = strip (rest.headD []) ∧ cols = (rest.drop 1).map strip := by
  rcases kind_cases row with ⟨h', _⟩ | ⟨c, rest, rfl, -, ⟨h', hc⟩ | ⟨h', -⟩ | ⟨r, h', -⟩ | ⟨p, r, h', -⟩ | h'⟩
  · rw [h] at h'; cases h'
  · rw [h] at h'; cases h'; exact ⟨c, rest, rfl, hc, rfl, rfl⟩
  all_goals (rw [h] at h'; cases h')

theorem kind_header {row : List Str} {n : Str} {cols : List Str} (h : kind row = .header n cols) :
    ∃ c rest, row = c :: rest ∧ PlainHeader c rest ∧ n = strip (rest.headD []) ∧ cols = (rest.drop 1).map strip := by
  rcases kind_cases row with ⟨h', _⟩ | ⟨c, rest, rfl, -, ⟨h', -⟩ | ⟨h', hc⟩ | ⟨r, h', -⟩ | ⟨p, r, h', -⟩ | h'⟩
  · rw [h] at h'; cases h'
  · rw [h] at h'; cases h'
  · rw [h] at h'; cases h'; exact ⟨c, rest, rfl, hc, rfl, rfl⟩
  all_goals (rw [h] at h'; cases h')

theorem kind_elided {row : List Str} {x : Str} (h : kind row = .elided x) (s : St) :
    ∃ c rest, row = c :: rest ∧ PlainCell s c ELIDED x := by
  rcases kind_cases row with ⟨h', _⟩ | ⟨c, rest, rfl, hk, ⟨h', -⟩ | ⟨h', hc⟩ | ⟨r, h', hs, hp⟩ | ⟨p, r, h', -⟩ | h'⟩
  · rw [h] at h'; cases h'
  · rw [h] at h'; cases h'
  · rw [h] at h'; cases h'
  · rw [h] at h'; cases h'
    exact ⟨c, rest, rfl, hk, hs, hp, fun e => hp.plain (by rw [← e]; decide), .inl rfl⟩
  all_goals (rw [h] at h'; cases h')

theorem kind_named {row : List Str} {p r : Str} (h : kind row = .named p r) {s : St} (hk : (s.p.lastMap.get? p).isSome) :
    ∃ c rest, row = c :: rest ∧ PlainCell s c p r ∧ p ≠ ELIDED := by
  rcases kind_cases row with ⟨h', _⟩ | ⟨c, rest, rfl, hn, ⟨h', -⟩ | ⟨h', hc⟩ | ⟨r, h', hs, hp⟩ | ⟨p, r, h', hs, hp, hd, he⟩ | h'⟩
  · rw [h] at h'; cases h'
  · rw [h] at h'; cases h'
  · rw [h] at h'; cases h'
  · rw [h] at h'; cases h'
  · rw [h] at h'; cases h'
    exact ⟨c, rest, rfl, ⟨hn, hs, hp, hd, .inr hk⟩, he⟩
  · rw [h] at h'; cases h'

/-- The parser knows these names. -/
def Knows (known : List Str) (s : St) : Prop := ∀ k ∈ known, (s.p.lastMap.get? k).isSome

theorem termEffect_p {p r : Str} {rest : List Str} {s : St} : (termEffect p r rest s).p =
    if p = ELIDED then s.p else { s.p with lastParent := r, lastMap := (s.p.lastMap.set ELIDED s.next).set r s.next } := by
  unfold termEffect
  rw [argsEffect_p]
  show nextP .. = _
  unfold nextP
  by_cases h : p = ELIDED
  · rw [if_neg (fun hn : Named _ _ => hn.1 h), if_pos h]
  · rw [if_pos (show Named p (rowObj (parserTermClass s (dotJoin p r)) p r rest).col from ⟨h, Nat.le_refl 1⟩), if_neg h]

theorem plainRows_of {F : Prop} : ∀ {rows : List (List Str)} {known : List Str} {s : St}, PInv F s → Knows known s →
    plainFrom known rows = true → ∃ s', PlainRows s rows s'
  | [], _, s, _, _, _ => ⟨s, .nil⟩
  | row :: rows, known, s, h, hk, hp => by
    unfold plainFrom at hp
    cases hkd : kind row with
    | special => rw [hkd] at hp; cases hp
    | noise =>
      rw [hkd] at hp
      obtain ⟨s', h'⟩ := plainRows_of h hk hp
      exact ⟨s', .cons (.noise (kind_noise hkd)) h'⟩
    | «section» n cols =>
      rw [hkd] at hp
      obtain ⟨c, rest, rfl, hs, -, -⟩ := kind_section hkd
      obtain ⟨s', h'⟩ := plainRows_of (s := sectionEffect rest s) (sectionEffect_inv h hs) hk hp
      exact ⟨s', .cons (.section hs) h'⟩
    | header n cols =>
      rw [hkd] at hp
      obtain ⟨c, rest, rfl, hs, -, -⟩ := kind_header hkd
      obtain ⟨s', h'⟩ := plainRows_of (s := headerEffect (parserTermClass s (py!"root.header")) rest s) (headerEffect_inv h hs) hk hp
      exact ⟨s', .cons (.header hs) h'⟩
    | elided x =>
      rw [hkd] at hp
      obtain ⟨c, rest, rfl, hc⟩ := kind_elided hkd s
      obtain ⟨s', h'⟩ := plainRows_of (s := termEffect ELIDED x rest s) (termEffect_inv h hc rest)
        (by unfold Knows; rw [termEffect_p, if_pos rfl]; exact hk) hp
      exact ⟨s', .cons (.term hc) h'⟩
    | named p r =>
      rw [hkd] at hp
      simp only [Bool.and_eq_true, List.contains_eq_mem, decide_eq_true_eq] at hp
      obtain ⟨c, rest, rfl, hc, he⟩ := kind_named (s := s) hkd (hk p hp.1)
      obtain ⟨s', h'⟩ := plainRows_of (s := termEffect p r rest s) (termEffect_inv h hc rest) (known := r :: known)
        (by
          intro k hk'
          rw [termEffect_p, if_neg he]
          simp only [Dict.get?_set]
          split
          · rfl
          · next hne =>
            split
            · rfl
            · rcases List.mem_cons.1 hk' with e | e
              · exact absurd e.symm hne
              · exact hk k e) hp.2
      exact ⟨s', .cons (.term hc) h'⟩

theorem plainFrom_append : ∀ {a b : List (List Str)} {known : List Str}, plainFrom known (a ++ b) = true →
    plainFrom known a = true
  | [], _, _, _ => rfl
  | row :: a, b, known, h => by
    rw [List.cons_append] at h
    unfold plainFrom at h ⊢
    cases hk : kind row <;> rw [hk] at h <;> simp only [Bool.and_eq_true] at h ⊢
    · exact plainFrom_append h
    · exact plainFrom_append h
    · exact plainFrom_append h
    · exact plainFrom_append h
    · exact ⟨h.1, plainFrom_append h.2⟩
    · cases h

theorem PlainRows.split : ∀ {a : List (List Str)} {b : List (List Str)} {s s' : St}, PlainRows s (a ++ b) s' →
    ∃ s1, PlainRows s a s1 ∧ PlainRows s1 b s'
  | [], b, s, s', h => ⟨s, .nil, h⟩
  | row :: a, b, s, s', h => by
    cases h with
    | cons hr ht =>
      obtain ⟨s1, h1, h2⟩ := PlainRows.split ht
      exact ⟨s1, .cons hr h1, h2⟩

theorem knows_new (env : Env) (classes : Dict Cls) : Knows [py!"root"] (newDoc env classes) := by
  intro k hk
  rw [List.mem_singleton.1 hk]; rfl

/-- A file of ordinary rows can be read, and what it does is known. -/
theorem plainFile_rows {env : Env} {classes : Dict Cls} (hcl : PlainClasses classes) {rows : List (List Str)}
    (h : plainFile rows = true) : ∃ s', PlainRows (newDoc env classes) rows s' :=
  plainRows_of (F := True) (pinv_new hcl) (knows_new env classes) h

/-- What a row does, by its kind. -/
theorem PlainRow.by_kind {s s' : St} {row : List Str} (h : PlainRow s row s') :
    (kind row = .noise ∧ s' = s) ∨
    (∃ c rest, row = c :: rest ∧ PlainSec c rest ∧ kind row = .section (strip (rest.headD [])) ((rest.drop 1).map strip) ∧
      s' = sectionEffect rest s) ∨
    (∃ c rest, row = c :: rest ∧ PlainHeader c rest ∧ kind row = .header (strip (rest.headD [])) ((rest.drop 1).map strip) ∧
      s' = headerEffect (parserTermClass s (py!"root.header")) rest s) ∨
    (∃ c x rest, row = c :: rest ∧ PlainCell s c ELIDED x ∧ kind row = .elided x ∧ s' = termEffect ELIDED x rest s) ∨
    (∃ c p r rest, row = c :: rest ∧ PlainCell s c p r ∧ p ≠ ELIDED ∧ kind row = .named p r ∧ s' = termEffect p r rest s) ∨
    kind row = .special := by
  have bad : ∀ {c p r p' r' : Str}, splitTermLower c = .ok (p, r) → splitTermLower c = .ok (p', r') → p = p' ∧ r = r' := by
    intro c p r p' r' h1 h2
    rw [h1] at h2; cases h2; exact ⟨rfl, rfl⟩
  have sp1 : ¬ PlainName (py!"section") := fun h => h.plain (by decide)
  have sp2 : ¬ PlainName (py!"header") := fun h => h.plain (by decide)
  rcases kind_cases row with ⟨hk, hs⟩ | ⟨c, rest, rfl, hs, ⟨hk, hc⟩ | ⟨hk, hc⟩ | ⟨r, hk, hc, hn⟩ | ⟨p, r, hk, hc, hn, hd, he⟩ | hk⟩
  · left
    refine ⟨hk, ?_⟩
    cases h with
    | noise => rfl
    | term h => have : false = true := h.noise.symm.trans hs; cases this
    | «section» h => have : false = true := h.noise.symm.trans hs; cases this
    | header h => have : false = true := h.noise.symm.trans hs; cases this
  · refine .inr (.inl ⟨c, rest, rfl, hc, hk, ?_⟩)
    cases h with
    | noise h => have : false = true := hs.symm.trans h; cases this
    | term h => obtain ⟨-, e⟩ := bad h.split hc.split; exact absurd (e ▸ h.name) sp1
    | «section» h => rfl
    | header h => obtain ⟨-, e⟩ := bad h.split hc.split; exact absurd e (by decide)
  · refine .inr (.inr (.inl ⟨c, rest, rfl, hc, hk, ?_⟩))
    cases h with
    | noise h => have : false = true := hs.symm.trans h; cases this
    | term h => obtain ⟨-, e⟩ := bad h.split hc.split; exact absurd (e ▸ h.name) sp2
    | «section» h => obtain ⟨-, e⟩ := bad h.split hc.split; exact absurd e (by decide)
    | header h => rfl
  · refine .inr (.inr (.inr (.inl ?_)))
    cases h with
    | noise h => have : false = true := hs.symm.trans h; cases this
    | term h => obtain ⟨rfl, rfl⟩ := bad h.split hc; exact ⟨c, _, rest, rfl, h, hk, rfl⟩
    | «section» h => obtain ⟨-, e⟩ := bad h.split hc; exact absurd (e ▸ hn) sp1
    | header h => obtain ⟨-, e⟩ := bad h.split hc; exact absurd (e ▸ hn) sp2
  · refine .inr (.inr (.inr (.inr (.inl ?_))))
    cases h with
    | noise h => have : false = true := hs.symm.trans h; cases this
    | term h => obtain ⟨rfl, rfl⟩ := bad h.split hc; exact ⟨c, _, _, rest, rfl, h, he, hk, rfl⟩
    | «section» h => obtain ⟨-, e⟩ := bad h.split hc; exact absurd (e ▸ hn) sp1
    | header h => obtain ⟨-, e⟩ := bad h.split hc; exact absurd (e ▸ hn) sp2
  · exact .inr (.inr (.inr (.inr (.inr hk))))

theorem PlainRow.of_elided {s s' : St} {row : List Str} {x : Str} (h : PlainRow s row s') (hk : kind row = .elided x) :
    ∃ c rest, row = c :: rest ∧ PlainCell s c ELIDED x ∧ s' = termEffect ELIDED x rest s := by
  rcases h.by_kind with ⟨k, -⟩ | ⟨c, rest, -, -, k, -⟩ | ⟨c, rest, -, -, k, -⟩ | ⟨c, x', rest, e, hc, k, hs⟩ | ⟨c, p, r, rest, -, -, -, k, -⟩ | k <;>
    rw [hk] at k <;> cases k
  exact ⟨c, rest, e, hc, hs⟩

theorem PlainRow.of_named {s s' : St} {row : List Str} {p r : Str} (h : PlainRow s row s') (hk : kind row = .named p r) :
    ∃ c rest, row = c :: rest ∧ PlainCell s c p r ∧ p ≠ ELIDED ∧ s' = termEffect p r rest s := by
  rcases h.by_kind with ⟨k, -⟩ | ⟨c, rest, -, -, k, -⟩ | ⟨c, rest, -, -, k, -⟩ | ⟨c, x', rest, -, -, k, -⟩ | ⟨c, p, r, rest, e, hc, he, k, hs⟩ | k <;>
    rw [hk] at k <;> cases k
  exact ⟨c, rest, e, hc, he, hs⟩

theorem PlainRow.of_section {s s' : St} {row : List Str} {n : Str} {cols : List Str} (h : PlainRow s row s')
    (hk : kind row = .section n cols) : ∃ c rest, row = c :: rest ∧ PlainSec c rest ∧ n = strip (rest.headD []) ∧
      cols = (rest.drop 1).map strip ∧ s' = sectionEffect rest s := by
  rcases h.by_kind with ⟨k, -⟩ | ⟨c, rest, e, hc, k, hs⟩ | ⟨c, rest, -, -, k, -⟩ | ⟨c, x', rest, -, -, k, -⟩ | ⟨c, p, r, rest, -, -, -, k, -⟩ | k <;>
    rw [hk] at k <;> cases k
  exact ⟨c, rest, e, hc, rfl, rfl, hs⟩

theorem PlainRow.of_header {s s' : St} {row : List Str} {n : Str} {cols : List Str} (h : PlainRow s row s')
    (hk : kind row = .header n cols) : ∃ c rest, row = c :: rest ∧ PlainHeader c rest ∧ n = strip (rest.headD []) ∧
      cols = (rest.drop 1).map strip ∧ s' = headerEffect (parserTermClass s (py!"root.header")) rest s := by
  rcases h.by_kind with ⟨k, -⟩ | ⟨c, rest, -, -, k, -⟩ | ⟨c, rest, e, hc, k, hs⟩ | ⟨c, x', rest, -, -, k, -⟩ | ⟨c, p, r, rest, -, -, -, k, -⟩ | k <;>
    rw [hk] at k <;> cases k
  exact ⟨c, rest, e, hc, rfl, rfl, hs⟩

theorem kind_header_ne {row : List Str} {n : Str} {cols : List Str} (h : kind row = .header n cols) : n ≠ [] := by
  unfold kind at h
  split at h
  · cases h
  · split at h
    · cases h
    · split at h
      · cases h
      · split at h
        · split at h <;> cases h
        · split at h
          · split at h
            · next hh => cases h; exact hh.1
            · cases h
          · split at h
            · split at h <;> cases h
            · cases h

theorem PlainRow.of_noise {s s' : St} {row : List Str} (h : PlainRow s row s') (hk : kind row = .noise) : s' = s := by
  rcases h.by_kind with ⟨-, e⟩ | ⟨c, rest, -, -, k, -⟩ | ⟨c, rest, -, -, k, -⟩ | ⟨c, x', rest, -, -, k, -⟩ | ⟨c, p, r, rest, -, -, -, k, -⟩ | k
  · exact e
  all_goals (rw [hk] at k; cases k)

/-- Reading ordinary rows, split into parts. -/
theorem plainFile_split {env : Env} {classes : Dict Cls} (hcl : PlainClasses classes) {a b : List (List Str)} {row : List Str}
    (h : plainFile (a ++ row :: b) = true) : ∃ s0 s1 s2, PlainRows (newDoc env classes) a s0 ∧ PInv True s0 ∧ PlainRow s0 row s1 ∧
      PInv True s1 ∧ PlainRows s1 b s2 ∧ PInv True s2 := by
  obtain ⟨s2, h2⟩ := plainFile_rows (env := env) hcl h
  obtain ⟨s0, h0, h1⟩ := h2.split
  have i0 := h0.inv (F := True) (pinv_new hcl)
  cases h1 with
  | cons hr ht => exact ⟨s0, _, s2, h0, i0, hr, hr.inv i0, ht, ht.inv (hr.inv i0)⟩

/-- What a term row leaves behind. -/
theorem termEffect_new {G F : Prop} {s : St} (h : PInvG G F s) {c p r : Str} (hc : PlainCell s c p r) (rest : List Str) :
    let o := (termEffect p r rest s).heap s.next
    o.pt = finalPt s.p p ∧ o.rt = r ∧ o.value = (Val.str (rest.headD [])).mk ∧ o.parent = some (parentOf s p) ∧
    o.sec = some s.p.lastSec ∧ s.next ∈ ((termEffect p r rest s).heap (parentOf s p)).children ∧
    (lower (finalPt s.p p) = ROOT → s.next ∈ (termEffect p r rest s).terms ∧ s.next ∈ ((termEffect p r rest s).heap s.p.lastSec).terms) := by
  obtain ⟨s1, hs1⟩ : ∃ s1, s1 = addTerm s (rowObj (parserTermClass s (dotJoin p r)) p r rest) p r (parentOf s p) := ⟨_, rfl⟩
  have l : Later s1 (termEffect p r rest s) := by rw [hs1]; exact later_argsEffect
  have hn : s1.heap s.next = finalObj s (rowObj (parserTermClass s (dotJoin p r)) p r rest) p r (parentOf s p) := by
    rw [hs1]; exact addTerm_heap_new
  have hlt : s.next < s1.next := by rw [hs1]; exact Nat.lt_succ_self _
  have hp := parent_lt h p
  obtain ⟨a1, a2, a3, a4, a5, a6, a7⟩ := l.obj s.next hlt
  have hx := h.wf.pSec.1
  refine ⟨?_, ?_, ?_, ?_, ?_, ?_, ?_⟩
  · rw [a1, hn, finalObj_pt]
  · rw [a2, hn, finalObj_rt]
  · rw [a3, hn, finalObj_value]; rfl
  · rw [a4, hn, finalObj_parent]
  · rw [l.sec s.next hlt (by rw [hn, finalObj_cls]; exact (canAdd_row h hc rest).1), hn, finalObj_sec]
  · refine (l.children _ (Nat.lt_trans hp hlt)).subset ?_
    rw [hs1, addTerm_heap_old hp]; simp
  · intro hr
    refine ⟨l.terms.subset ?_, (l.secTerms _ (Nat.lt_trans hx hlt)).subset ?_⟩
    · rw [hs1]
      show s.next ∈ (if _ then _ else _)
      rw [if_pos hr]; simp
    · rw [hs1, addTerm_heap_old hx]; simp [hr]

theorem termEffect_lt {p r : Str} {rest : List Str} {s : St} : s.next < (termEffect p r rest s).next :=
  Nat.lt_of_lt_of_le (Nat.lt_succ_self s.next) (later_argsEffect (t := s.next) (vs := (rest.drop 1).map strip) (k := 0)
    (s := addTerm s (rowObj (parserTermClass s (dotJoin p r)) p r rest) p r (parentOf s p))).next

theorem termEffect_cls {F : Prop} {s : St} (h : PInv F s) {c p r : Str} (hc : PlainCell s c p r) (rest : List Str) :
    ((termEffect p r rest s).heap s.next).cls.isSection = false := by
  show ((argsEffect _ _ _ _).heap _).cls.isSection = false
  rw [later_argsEffect.cls _ (Nat.lt_succ_self _), addTerm_heap_new, finalObj_cls]; exact (canAdd_row h hc rest).1

end Metatab
