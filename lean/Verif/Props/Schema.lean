import Verif.Lemmas.SameFind
import Verif.Lemmas.Examples
import Verif.Props.Columns
import Verif.Props.UpdateName
import Verif.Props.Find
import Verif.Model.Clean
import Verif.Spec.Schema
/-! # C61: cleaning the columns of the Schema section -/
namespace Metatab
open Py _root_.Spec Metatab.Spec

/-! ## The names in use -/

instance decFilled : (v : Val) → Decidable (Filled v)
  | .str t => inferInstanceAs (Decidable (strip t ≠ []))
  | .none | .fls | .int _ | .obj _ => .isFalse id

theorem hasText_text {v : Val} (h : TextCell v) : hasText v = .ok (decide (Filled v)) := by
  cases v <;> simp [TextCell] at h <;> rfl

theorem textNames_text : ∀ {d : List (Str × Val)}, (∀ kv ∈ d, TextCell kv.2) →
    ∃ l, textNames d = .ok l ∧ ∀ k, k ∈ l ↔ ∃ v, (k, v) ∈ d ∧ Filled v
  | [], _ => ⟨[], rfl, fun k => by simp⟩
  | (k, v) :: d, h => by
    obtain ⟨l, h1, h2⟩ := textNames_text fun kv hkv => h kv (List.mem_cons_of_mem _ hkv)
    have hv : TextCell v := h (k, v) List.mem_cons_self
    refine ⟨if decide (Filled v) then k :: l else l, ?_, fun j => ?_⟩
    · unfold textNames
      rw [hasText_text hv, h1]
      rfl
    · by_cases hf : Filled v
      · simp only [hf, decide_true, if_true, List.mem_cons, h2, Prod.mk.injEq]
        constructor
        · rintro (rfl | ⟨w, h3, h4⟩)
          · exact ⟨v, .inl ⟨rfl, rfl⟩, hf⟩
          · exact ⟨w, .inr h3, h4⟩
        · rintro ⟨w, (⟨h3, _⟩ | h3), h4⟩
          · exact .inl h3
          · exact .inr ⟨w, h3, h4⟩
      · simp only [hf, decide_false, Bool.false_eq_true, if_false, h2, List.mem_cons, Prod.mk.injEq]
        constructor
        · rintro ⟨w, h3, h4⟩; exact ⟨w, .inr h3, h4⟩
        · rintro ⟨w, (⟨_, h3⟩ | h3), h4⟩
          · subst h3; exact absurd h4 hf
          · exact ⟨w, h3, h4⟩

/-- The last pair of a list with a key. -/
theorem get?_reverse_iff {l : List (Str × Val)} {k : Str} {v : Val} :
    Dict.get? l.reverse k = some v ↔ ∃ pre post, l = pre ++ (k, v) :: post ∧ ∀ e ∈ post, e.1 ≠ k := by
  induction l generalizing v with
  | nil => simp
  | cons kv l ih =>
    have e : Dict.get? (kv :: l).reverse k = (Dict.get? l.reverse k).or (Dict.get? [kv] k) := by
      have h1 := Dict.get?_update (α := Val) [kv] l k
      have h2 := Dict.get?_update (α := Val) [] (kv :: l) k
      rw [Dict.get?_nil, Option.or_none] at h2
      rw [← h2, ← h1]
      rfl
    rw [e]
    cases hg : Dict.get? l.reverse k with
    | some w =>
      simp only [Option.some_or, Option.some.injEq]
      constructor
      · rintro rfl
        obtain ⟨pre, post, h1, h2⟩ := ih.1 hg
        exact ⟨kv :: pre, post, by rw [h1]; rfl, h2⟩
      · rintro ⟨pre, post, h1, h2⟩
        cases pre with
        | nil =>
          simp only [List.nil_append, List.cons.injEq] at h1
          have hm := Dict.mem_of_get? hg
          rw [List.mem_reverse, h1.2] at hm
          exact absurd rfl (h2 _ hm)
        | cons a pre =>
          simp only [List.cons_append, List.cons.injEq] at h1
          have := (ih (v := v)).2 ⟨pre, post, h1.2, h2⟩
          rw [hg] at this
          cases this; rfl
    | none =>
      simp only [Option.none_or]
      constructor
      · intro h
        have := Dict.mem_of_get? h
        simp only [List.mem_cons, List.not_mem_nil, or_false] at this
        subst this
        refine ⟨[], l, rfl, fun e he hk => ?_⟩
        have := (Dict.get?_eq_none).1 hg
        exact this (List.mem_map.2 ⟨e, List.mem_reverse.2 he, hk⟩)
      · rintro ⟨pre, post, h1, h2⟩
        cases pre with
        | nil =>
          simp only [List.nil_append, List.cons.injEq] at h1
          rw [h1.1]; simp [Dict.get?]
        | cons a pre =>
          simp only [List.cons_append, List.cons.injEq] at h1
          have := (ih (v := v)).2 ⟨pre, post, h1.2, h2⟩
          rw [hg] at this; cases this

theorem props_gives {s : St} {c : Nat} {k : Str} : (∃ v, (k, v) ∈ props s c ∧ Filled v) ↔ Gives s c k := by
  have hn : (props s c).keys.Nodup := Dict.nodup_update (by simp [Dict.keys]) _
  have hm : ∀ v, (k, v) ∈ props s c ↔ Dict.get? (((s.heap c).children.map fun c => (lower (s.heap c).rt, (s.heap c).value)).reverse) k = some v := by
    intro v
    have : Dict.get? (props s c) k = some v ↔ (k, v) ∈ props s c := ⟨Dict.mem_of_get?, Dict.get?_of_mem hn⟩
    rw [← this]
    unfold props
    rw [Dict.get?_update, Dict.get?_nil, Option.or_none]
  constructor
  · rintro ⟨v, h1, h2⟩
    obtain ⟨pre, post, h3, h4⟩ := get?_reverse_iff.1 ((hm v).1 h1)
    obtain ⟨a, b, h5, h6, h7⟩ := List.map_eq_append_iff.1 h3
    obtain ⟨d, b', h8, h9, h10⟩ := List.map_eq_cons_iff.1 h7
    simp only [Prod.mk.injEq] at h9
    refine ⟨a, d, b', by rw [h5, h8], h9.1, by rw [h9.2]; exact h2, fun e he => ?_⟩
    have : (lower (s.heap e).rt, (s.heap e).value) ∈ post := by rw [← h10]; exact List.mem_map.2 ⟨e, he, rfl⟩
    exact h4 _ this
  · rintro ⟨pre, d, post, h1, h2, h3, h4⟩
    refine ⟨_, (hm _).2 (get?_reverse_iff.2 ⟨pre.map fun c => (lower (s.heap c).rt, (s.heap c).value),
      post.map fun c => (lower (s.heap c).rt, (s.heap c).value), ?_, ?_⟩), h3⟩
    · rw [h1, List.map_append, List.map_cons, h2]
    · intro e he
      obtain ⟨c', h5, h6⟩ := List.mem_map.1 he
      rw [← h6]
      exact h4 c' h5

theorem props_text {s : St} {c : Nat} (h : ∀ d ∈ (s.heap c).children, TextCell (s.heap d).value) : ∀ kv ∈ props s c, TextCell kv.2 := by
  intro kv hkv
  have hn : (props s c).keys.Nodup := Dict.nodup_update (by simp [Dict.keys]) _
  have := Dict.get?_of_mem hn hkv
  unfold props at this
  rw [Dict.get?_update, Dict.get?_nil, Option.or_none] at this
  have := Dict.mem_of_get? this
  rw [List.mem_reverse, List.mem_map] at this
  obtain ⟨d, h1, h2⟩ := this
  rw [← (Prod.mk.inj h2).2]
  exact h d h1

theorem usedInColumns_text {s : St} : ∀ {cs : List Nat}, (∀ c ∈ cs, ∀ d ∈ (s.heap c).children, TextCell (s.heap d).value) →
    ∃ l, usedInColumns s cs = .ok l ∧ ∀ k, k ∈ l ↔ ∃ c ∈ cs, Gives s c k
  | [], _ => ⟨[], rfl, fun k => by simp⟩
  | c :: cs, h => by
    obtain ⟨a, h1, h2⟩ := textNames_text (props_text (h c List.mem_cons_self))
    obtain ⟨b, h3, h4⟩ := usedInColumns_text fun c' hc' => h c' (List.mem_cons_of_mem _ hc')
    refine ⟨a ++ b, ?_, fun k => ?_⟩
    · unfold usedInColumns; rw [h1, h3]; rfl
    · simp only [List.mem_append, h2, h4, props_gives, List.mem_cons, exists_eq_or_imp]

theorem termFind_column {s : St} {t : Nat} (h : lower (s.heap t).rt = py!"table") : termFind s t (py!"Table.Column") = .ok (columnsOf s t) := by
  have e : localName s t (py!"Table.Column") = .ok (py!"Column") := by
    have q : splitOn '.' (py!"Table.Column") = [py!"Table", py!"Column"] := by decide
    unfold localName
    rw [if_pos (by decide), q]
    simp only
    rw [if_pos (by rw [h]; decide)]
  unfold termFind
  rw [e]
  show Except.ok _ = _
  congr 1
  unfold columnsOf
  refine List.filter_congr fun c _ => ?_
  have : (Val.fls == Val.fls) = true := by decide
  rw [this, Bool.true_or, Bool.and_true]
  rw [show lower (py!"Column") = py!"column" by decide]
  exact Bool.eq_iff_iff.2 (by simp)

theorem usedInTables_text {s : St} : ∀ {ts : List Nat}, (∀ t ∈ ts, lower (s.heap t).rt = py!"table") →
    (∀ t ∈ ts, ∀ c ∈ columnsOf s t, ∀ d ∈ (s.heap c).children, TextCell (s.heap d).value) →
    ∃ l, usedInTables s ts = .ok l ∧ ∀ k, k ∈ l ↔ UsedName s ts k
  | [], _, _ => ⟨[], rfl, fun k => by simp [UsedName]⟩
  | t :: ts, hn, h => by
    obtain ⟨a, h1, h2⟩ := usedInColumns_text (h t List.mem_cons_self)
    obtain ⟨b, h3, h4⟩ := usedInTables_text (fun c hc => hn c (List.mem_cons_of_mem _ hc)) fun c' hc' => h c' (List.mem_cons_of_mem _ hc')
    refine ⟨a ++ b, ?_, fun k => ?_⟩
    · unfold usedInTables; rw [termFind_column (hn t List.mem_cons_self)]
      show (do let a ← usedInColumns s (columnsOf s t); _) = _
      rw [h1, h3]; rfl
    · simp only [List.mem_append, h2, h4, UsedName, List.mem_cons, exists_eq_or_imp]

/-! ## The columns -/

/-- Only the columns of a section differ. -/
def withArgs (s : St) (x : Nat) (l : List Str) : St := s.setObj x { s.heap x with args := l }

theorem withArgs_withArgs (s : St) (x : Nat) (l m : List Str) : withArgs (withArgs s x l) x m = withArgs s x m := by
  unfold withArgs St.setObj
  congr 1
  funext j
  by_cases h : j = x <;> simp [h]

theorem args_withArgs (s : St) (x : Nat) (l : List Str) : ((withArgs s x l).heap x).args = l := by simp [withArgs, St.setObj]

theorem withArgs_self (s : St) (x : Nat) : withArgs s x (s.heap x).args = s := by
  unfold withArgs St.setObj
  congr 1
  funext j
  by_cases h : j = x <;> simp [h]

theorem removeArgs_run {x : Nat} : ∀ (L : List Str) (s : St), ∃ l, forL (fun a => removeArg x (title a)) L s = .ok () (withArgs s x l) ∧
    cols l = (cols (s.heap x).args).filter fun c => ∀ a ∈ L, lower c ≠ lower a
  | [], s => ⟨(s.heap x).args, by rw [withArgs_self]; rfl, by simp⟩
  | a :: L, s => by
    obtain ⟨l, h1, h2⟩ := removeArgs_run L (withArgs s x ((cols (s.heap x).args).filter fun c => lower c ≠ lower (title a)))
    refine ⟨l, ?_, ?_⟩
    · have := C23_remove s x (title a)
      unfold forL
      rw [bind_run, this]
      simp only
      rw [show s.setObj x { s.heap x with args := (cols (s.heap x).args).filter fun c => lower c ≠ lower (title a) } =
        withArgs s x ((cols (s.heap x).args).filter fun c => lower c ≠ lower (title a)) from rfl, h1, withArgs_withArgs]
    · rw [h2, args_withArgs]
      have e : cols ((cols (s.heap x).args).filter fun c => lower c ≠ lower (title a)) =
          (cols (s.heap x).args).filter fun c => lower c ≠ lower (title a) := by
        have : ∀ l : List Str, (∀ c ∈ l, strip c = c ∧ c ≠ []) → cols l = l := by
          intro l hl
          unfold cols
          rw [List.map_congr_left (g := id) (fun c hc => (hl c hc).1), List.map_id, List.filter_eq_self]
          intro c hc
          simpa using (hl c hc).2
        refine this _ fun c hc => ?_
        have := (List.mem_filter.1 hc).1
        unfold cols at this
        obtain ⟨b, _, hb⟩ := List.mem_map.1 (List.mem_filter.1 this).1
        refine ⟨by rw [← hb, strip_strip], by simpa using (List.mem_filter.1 this).2⟩
      rw [e, List.filter_filter]
      refine List.filter_congr fun c _ => ?_
      rw [lower_title]
      refine Bool.eq_iff_iff.2 ?_
      simp only [Bool.and_eq_true, decide_eq_true_eq, List.mem_cons, forall_eq_or_imp]
      exact and_comm

theorem addArgs_run {x : Nat} : ∀ (L : List Str) (s : St), L.Nodup → (∀ a ∈ L, strip a = a ∧ a ≠ [] ∧ lower a = a) →
    (∀ a ∈ L, ∀ c ∈ cols (s.heap x).args, lower c ≠ a) →
    ∃ l, forL (fun a => addArg x a) L s = .ok () (withArgs s x l) ∧ cols l = cols (s.heap x).args ++ L.map title
  | [], s, _, _, _ => ⟨(s.heap x).args, by rw [withArgs_self]; rfl, by simp⟩
  | a :: L, s, hn, hs, hd => by
    have ha := hs a List.mem_cons_self
    have hnot : lower a ∉ (cols (s.heap x).args).map lower := by
      intro h
      obtain ⟨c, h1, h2⟩ := List.mem_map.1 h
      rw [ha.2.2] at h2
      exact hd a List.mem_cons_self c h1 h2
    have e1 : addArgList (s.heap x).args a false = cols (s.heap x).args ++ [title a] := by
      unfold addArgList
      simp only [cleanArgs_eq, hnot, not_false_eq_true, if_true, Bool.false_eq_true, if_false]
    have e2 : cols (cols (s.heap x).args ++ [title a]) = cols (s.heap x).args ++ [title a] := by
      have ht : title a ≠ [] := by
        intro e; have := lower_title a; rw [e] at this; simp at this; exact ha.2.1 this
      have : ∀ l b, cols (l ++ [b]) = cols l ++ if strip b ≠ [] then [strip b] else [] := by
        intro l b; simp only [cols, List.map_append, List.filter_append, List.map_cons, List.map_nil, List.filter_cons]; simp
      rw [this, cols_cols, strip_title ha.1, if_pos ht]
    obtain ⟨l, h1, h2⟩ := addArgs_run (x := x) L (withArgs s x (cols (s.heap x).args ++ [title a])) hn.of_cons
      (fun b hb => hs b (List.mem_cons_of_mem _ hb)) (by
        intro b hb c hc
        rw [args_withArgs, e2, List.mem_append] at hc
        rcases hc with hc | hc
        · exact hd b (List.mem_cons_of_mem _ hb) c hc
        · simp only [List.mem_cons, List.not_mem_nil, or_false] at hc
          rw [hc, lower_title, ha.2.2]
          rintro rfl
          exact (List.nodup_cons.1 hn).1 hb)
    refine ⟨l, ?_, ?_⟩
    · unfold forL
      rw [bind_run]
      have : addArg x a false s = .ok () (withArgs s x (cols (s.heap x).args ++ [title a])) := by
        rw [← e1]; simp [addArg, withArgs]
      rw [this]
      simp only
      rw [h1, withArgs_withArgs]
    · rw [h2, args_withArgs, e2, List.map_cons, List.append_assoc]
      rfl

/-! ## The empty properties -/

/-- A term below another one, by its name, and no section. -/
structure Inner (s : St) (d : Nat) : Prop where
  notSec : (s.heap d).cls.isSection = false
  notRoot : lower (s.heap d).pt ≠ ROOT

theorem Inner.placed {s : St} {d : Nat} (h : Inner s d) : Placed s d :=
  ⟨h.notSec, fun _ _ e => absurd e h.notRoot, fun _ _ e => absurd e h.notRoot⟩

/-- The document without some terms. -/
structure Pruned (s s' : St) (gone : List Nat) : Prop where
  eq : s' = gone.foldl without s
  reach : Reach Op.noAddChild s'
  kids : ∀ j, (s'.heap j).children = (s.heap j).children.filter (· ∉ gone)
  rest : ∀ j, s'.heap j = { s.heap j with children := (s'.heap j).children, terms := (s'.heap j).terms }

theorem Pruned.refl {s : St} (h : Reach Op.noAddChild s) : Pruned s s [] :=
  ⟨rfl, h, fun j => by simp, fun _ => rfl⟩

theorem Pruned.snoc {s s' : St} {gone : List Nat} (p : Pruned s s' gone) {c d : Nat} (hc : d ∈ (s'.heap c).children) (hd : Inner s d) :
    removeChild c d s' = .ok () (without s' d) ∧ Pruned s (without s' d) (gone ++ [d]) := by
  have w : WF True s' := p.reach.wf fun _ op ho => ho
  have hd' : Inner s' d := ⟨by rw [p.rest d]; exact hd.notSec, by rw [p.rest d]; exact hd.notRoot⟩
  have hrun := removeChild_run p.reach hc hd'.placed
  refine ⟨hrun, ?_, ?_, fun j => ?_, fun j => ?_⟩
  · rw [List.foldl_append, ← p.eq]; rfl
  · have hlt := (w.kidLt c d hc)
    have := Reach.step (.removeChild c d) p.reach trivial ⟨?_, ?_⟩
    · rw [show after (Op.removeChild c d).run s' = without s' d from ?_] at this
      · exact this
      · show after (removeChild c d) s' = _
        unfold after; rw [hrun]
    · refine Nat.lt_of_not_le fun hle => ?_
      rw [w.blank c hle] at hc
      cases hc
    · exact hlt
  · show (if (s'.heap d).parent = some j then (s'.heap j).children.filter (· ≠ d) else (s'.heap j).children) = _
    have e : (s'.heap j).children.filter (· ≠ d) = (s.heap j).children.filter (· ∉ gone ++ [d]) := by
      rw [p.kids j, List.filter_filter]
      refine List.filter_congr fun a _ => ?_
      refine Bool.eq_iff_iff.2 ?_
      simp [and_comm]
    split
    · exact e
    · next h =>
      rw [← e, List.filter_eq_self.2]
      intro a ha
      simp only [ne_eq, decide_not, Bool.not_eq_true', decide_eq_false_iff_not]
      rintro rfl
      exact h (w.kidPar trivial j a ha)
  · have : (without s' d).heap j = { s'.heap j with children := ((without s' d).heap j).children, terms := ((without s' d).heap j).terms } := rfl
    rw [this, p.rest j]

theorem dropBlank_run {s : St} {c : Nat} : ∀ {ks : List Nat} {s' : St} {gone : List Nat}, Pruned s s' gone → ks.Nodup →
    (∀ d ∈ ks, d ∈ (s'.heap c).children) →
    (∀ d ∈ ks, TextCell (s.heap d).value ∧ (¬ Filled (s.heap d).value → Inner s d)) →
    ∃ s'' gone', dropBlank c ks s' = .ok () s'' ∧ Pruned s s'' gone' ∧
      ∀ d, d ∈ gone' ↔ d ∈ gone ∨ (d ∈ ks ∧ ¬ Filled (s.heap d).value)
  | [], s', gone, p, _, _, _ => ⟨s', gone, rfl, p, fun d => by simp⟩
  | k :: ks, s', gone, p, hn, hm, hd => by
    have hk := hd k List.mem_cons_self
    have hv : (s'.heap k).value = (s.heap k).value := by rw [p.rest k]
    have hn' := List.nodup_cons.1 hn
    unfold dropBlank
    simp only [bind_run, obj_run, lift_run, hv, hasText_text hk.1]
    by_cases hf : Filled (s.heap k).value
    · obtain ⟨s2, g2, h1, h2, h3⟩ := dropBlank_run p hn'.2 (fun d hd => hm d (List.mem_cons_of_mem _ hd)) fun d h => hd d (List.mem_cons_of_mem _ h)
      refine ⟨s2, g2, ?_, h2, fun d => ?_⟩
      · simp only [hf, decide_true, Bool.not_true, Bool.false_eq_true, if_false]
        exact h1
      · rw [h3 d, List.mem_cons]
        constructor
        · rintro (h | ⟨h, h'⟩)
          · exact .inl h
          · exact .inr ⟨.inr h, h'⟩
        · rintro (h | ⟨h | h, h'⟩)
          · exact .inl h
          · rw [h] at h'; exact absurd hf h'
          · exact .inr ⟨h, h'⟩
    · obtain ⟨hrun, p1⟩ := p.snoc (hm k List.mem_cons_self) (hk.2 hf)
      obtain ⟨s2, g2, h1, h2, h3⟩ := dropBlank_run p1 hn'.2 (fun d h => by
          have := hm d (List.mem_cons_of_mem _ h)
          rw [p1.kids c]
          rw [p.kids c, List.mem_filter] at this
          refine List.mem_filter.2 ⟨this.1, ?_⟩
          have h2 := this.2
          simp only [decide_eq_true_eq] at h2
          simp only [List.mem_append, List.mem_cons, List.not_mem_nil, or_false, decide_eq_true_eq, not_or]
          exact ⟨h2, fun e => hn'.1 (e ▸ h)⟩)
        fun d h => hd d (List.mem_cons_of_mem _ h)
      refine ⟨s2, g2, ?_, h2, fun d => ?_⟩
      · simp only [hf, decide_false, Bool.not_false, if_true]
        rw [bind_run, hrun]
        exact h1
      · rw [h3 d, List.mem_cons, List.mem_append, List.mem_singleton]
        constructor
        · rintro ((h | h) | ⟨h, h'⟩)
          · exact .inl h
          · exact .inr ⟨.inl h, by rw [h]; exact hf⟩
          · exact .inr ⟨.inr h, h'⟩
        · rintro (h | ⟨h | h, h'⟩)
          · exact .inl (.inl h)
          · exact .inl (.inr h)
          · exact .inr ⟨h, h'⟩

theorem dropColumns_run {s : St} (hnd : ∀ j, (s.heap j).children.Nodup) : ∀ {cs : List Nat} {s' : St} {gone : List Nat}, Pruned s s' gone →
    (∀ c ∈ cs, ∀ d ∈ (s.heap c).children, TextCell (s.heap d).value ∧ (¬ Filled (s.heap d).value → Inner s d)) →
    ∃ s'' gone', forL (fun c => do
      let o ← obj c
      dropBlank c o.children) cs s' = .ok () s'' ∧ Pruned s s'' gone' ∧
      ∀ d, d ∈ gone' ↔ d ∈ gone ∨ ∃ c ∈ cs, d ∈ (s.heap c).children ∧ ¬ Filled (s.heap d).value
  | [], s', gone, p, _ => ⟨s', gone, rfl, p, fun d => by simp⟩
  | c :: cs, s', gone, p, hd => by
    have hsub : ∀ d ∈ (s'.heap c).children, d ∈ (s.heap c).children := fun d h => by
      rw [p.kids c] at h; exact (List.mem_filter.1 h).1
    obtain ⟨s1, g1, h1, p1, h3⟩ := dropBlank_run (c := c) p (ks := (s'.heap c).children) (by rw [p.kids c]; exact (hnd c).filter _) (fun _ h => h)
      fun d h => hd c List.mem_cons_self d (hsub d h)
    obtain ⟨s2, g2, h4, p2, h5⟩ := dropColumns_run hnd (cs := cs) p1 fun c' h => hd c' (List.mem_cons_of_mem _ h)
    refine ⟨s2, g2, ?_, p2, fun d => ?_⟩
    · unfold forL
      simp only [bind_run, obj_run, h1]
      exact h4
    · rw [h5 d, h3 d]
      simp only [List.mem_cons, exists_eq_or_imp]
      constructor
      · rintro ((h | ⟨h, h'⟩) | h)
        · exact .inl h
        · exact .inr (.inl ⟨hsub d h, h'⟩)
        · exact .inr (.inr h)
      · rintro (h | ⟨h, h'⟩ | h)
        · exact .inl (.inl h)
        · by_cases hg : d ∈ gone
          · exact .inl (.inl hg)
          · exact .inl (.inr ⟨by rw [p.kids c]; exact List.mem_filter.2 ⟨h, by simpa using hg⟩, h'⟩)
        · exact .inr h

theorem dropBlankTables_run {s : St} (h0 : Reach Op.noAddChild s) : ∀ {ts : List Nat} {s' : St} {gone : List Nat}, Pruned s s' gone →
    (∀ g ∈ gone, ∃ c, lower (s.heap c).rt = py!"column" ∧ g ∈ (s.heap c).children) →
    (∀ t ∈ ts, lower (s.heap t).rt = py!"table") →
    (∀ t ∈ ts, ∀ c ∈ columnsOf s t, ∀ d ∈ (s.heap c).children, TextCell (s.heap d).value ∧ (¬ Filled (s.heap d).value → Inner s d)) →
    ∃ s'' gone', dropBlankTables ts s' = .ok () s'' ∧ Pruned s s'' gone' ∧ ∀ d, d ∈ gone' ↔ d ∈ gone ∨ EmptyProp s ts d
  | [], s', gone, p, _, _, _ => ⟨s', gone, rfl, p, fun d => by simp [EmptyProp]⟩
  | t :: ts, s', gone, p, hg, hn, hd => by
    have w : WF True s := h0.wf fun _ op ho => ho
    have ht := hn t List.mem_cons_self
    have hcol : columnsOf s' t = columnsOf s t := by
      unfold columnsOf
      rw [p.kids t, List.filter_filter]
      refine List.filter_congr fun c hc => ?_
      rw [p.rest c]
      refine Bool.eq_iff_iff.2 ?_
      simp only [Bool.and_eq_true, decide_eq_true_eq, and_iff_left_iff_imp]
      intro h1 h2
      obtain ⟨q, h3, h4⟩ := hg c h2
      have e1 := w.kidPar trivial q c h4
      have e2 := w.kidPar trivial t c hc
      rw [e1] at e2
      cases e2
      rw [h3] at ht
      exact absurd ht (by decide)
    obtain ⟨s1, g1, h1, p1, h3⟩ := dropColumns_run (w.kidNodup trivial) (cs := columnsOf s t) p (hd t List.mem_cons_self)
    obtain ⟨s2, g2, h4, p2, h5⟩ := dropBlankTables_run h0 (ts := ts) p1 (fun g h => by
        rcases (h3 g).1 h with h | ⟨c, h6, h7, _⟩
        · exact hg g h
        · exact ⟨c, by simpa using (List.mem_filter.1 h6).2, h7⟩)
      (fun t' h => hn t' (List.mem_cons_of_mem _ h)) fun t' h => hd t' (List.mem_cons_of_mem _ h)
    refine ⟨s2, g2, ?_, p2, fun d => ?_⟩
    · unfold dropBlankTables
      have e : termFind s' t (py!"Table.Column") = .ok (columnsOf s t) := by
        rw [termFind_column (by rw [p.rest t]; exact ht), hcol]
      simp only [bind_run, lift_run, e, h1]
      exact h4
    · rw [h5 d, h3 d]
      simp only [EmptyProp, List.mem_cons, exists_eq_or_imp, or_assoc]

/-! ## The whole -/

open Classical in
/-- What `clean_unused_schema_terms` is called on: a document with a Schema section `x` whose tables are `tables`, that is, the root-level terms
called `Table` whose section has the name of `x`. No other type is derived from tables, the properties of columns are texts, the empty ones are
ordinary children, and no column name has blanks around it. -/
structure SchemaOk (s : St) (x : Nat) (tables : List Nat) : Prop where
  reach : Reach Op.noAddChild s
  sec : s.sections.get? (py!"schema") = some x
  noDerived : s.derived.get? (py!"root.table") = none
  searchable : ∀ t ∈ s.terms, Searchable s.heap t
  listed : ∃ n, (s.heap x).value = .str n ∧ tables = s.terms.filter fun t => Meets s.heap (py!"Root", py!"Table") .fls (some [n]) t
  text : ∀ t ∈ tables, ∀ c ∈ columnsOf s t, ∀ d ∈ (s.heap c).children, TextCell (s.heap d).value
  inner : ∀ d, EmptyProp s tables d → Inner s d
  trimmed : ∀ a ∈ (s.heap x).args, strip a = a ∨ strip a = []
  names : ∀ k, UsedName s tables k → strip k = k ∧ k ≠ []
  order : ∀ l, (s.env.setOrd l).Perm l

theorem sectionFind_tables {s : St} {x : Nat} (noDerived : s.derived.get? (py!"root.table") = none)
    (hs : ∀ t ∈ s.terms, Searchable s.heap t) {n : Str} (hn : (s.heap x).value = .str n) :
    open Classical in
    sectionFind s x (py!"Root.Table") = .ok (s.terms.filter fun t => Meets s.heap (py!"Root", py!"Table") .fls (some [n]) t) := by
  unfold sectionFind
  rw [hn]
  exact C11_qualified (q := (py!"Root", py!"Table")) ⟨by decide, by decide, by decide⟩ ⟨by decide, by decide, by decide⟩ noDerived
    (l := s.terms) rfl hs .fls (some [n])

theorem SchemaOk.found {s : St} {x : Nat} {tables : List Nat} (h : SchemaOk s x tables) : sectionFind s x (py!"Root.Table") = .ok tables := by
  obtain ⟨n, h1, h2⟩ := h.listed
  rw [sectionFind_tables h.noDerived h.searchable h1, h2]

theorem SchemaOk.named {s : St} {x : Nat} {tables : List Nat} (h : SchemaOk s x tables) : ∀ t ∈ tables, lower (s.heap t).rt = py!"table" := by
  intro t ht
  obtain ⟨n, h1, h2⟩ := h.listed
  rw [h2, List.mem_filter] at ht
  have hm : Meets s.heap (py!"Root", py!"Table") .fls (some [n]) t := by simpa using ht.2
  exact hm.2.1.2.elim (fun e => absurd e (by decide)) fun e => e.symm.trans (by decide)

theorem heap_withArgs (s : St) (x : Nat) (l : List Str) (j : Nat) :
    (withArgs s x l).heap j = { s.heap j with args := ((withArgs s x l).heap j).args } := by
  unfold withArgs
  rw [heap_setObj]
  split
  · next e => subst e; rfl
  · rfl

theorem heap_fields (s : St) (x : Nat) (l : List Str) (j : Nat) :
    ((withArgs s x l).heap j).children = (s.heap j).children ∧ ((withArgs s x l).heap j).rt = (s.heap j).rt ∧
      ((withArgs s x l).heap j).pt = (s.heap j).pt ∧ ((withArgs s x l).heap j).cls = (s.heap j).cls ∧
      ((withArgs s x l).heap j).value = (s.heap j).value := by
  rw [heap_withArgs s x l j]
  exact ⟨rfl, rfl, rfl, rfl, rfl⟩

theorem columnsOf_withArgs (s : St) (x : Nat) (l : List Str) (t : Nat) : columnsOf (withArgs s x l) t = columnsOf s t := by
  unfold columnsOf
  rw [(heap_fields s x l t).1]
  refine List.filter_congr fun c _ => ?_
  rw [(heap_fields s x l c).2.1]

theorem emptyProp_withArgs (s : St) (x : Nat) (l : List Str) (ts : List Nat) (d : Nat) : EmptyProp (withArgs s x l) ts d ↔ EmptyProp s ts d := by
  simp only [EmptyProp, columnsOf_withArgs, (heap_fields s x l _).1, (heap_fields s x l _).2.2.2.2]

/-- Changing the columns name by name is done by calls a client can make. -/
theorem reach_forL {x : Nat} {f : Str → Op} (hf : ∀ a, (f a).noAddChild) (hv : ∀ a s, (f a).valid s ↔ s.isSec x)
    (hr : ∀ a s, ∃ l, (f a).run s = .ok () (withArgs s x l)) : ∀ {L : List Str} {s s' : St}, Reach Op.noAddChild s → s.isSec x →
    forL (fun a => (f a).run) L s = .ok () s' → Reach Op.noAddChild s'
  | [], _, _, h, _, e => by cases e; exact h
  | a :: L, s, s', h, hx, e => by
    obtain ⟨l, hl⟩ := hr a s
    unfold forL at e
    rw [bind_run, hl] at e
    have h1 := Reach.step (f a) h (hf a) ((hv a s).2 hx)
    rw [show after (f a).run s = withArgs s x l by unfold after; rw [hl]] at h1
    refine reach_forL hf hv hr h1 ⟨hx.1, ?_⟩ e
    rw [(heap_fields s x l x).2.2.2.1]; exact hx.2

theorem nodup_dedup : ∀ (n : Nat) (l : List Str), l.length ≤ n → l.eraseDups.Nodup
  | _, [], _ => by simp
  | n + 1, a :: l, h => by
    rw [List.eraseDups_cons, List.nodup_cons]
    refine ⟨fun hm => ?_, nodup_dedup n _ (Nat.le_trans (List.length_filter_le _ _) (by simpa using h))⟩
    rw [List.mem_eraseDups] at hm
    simpa using (List.mem_filter.1 hm).2

theorem low_used {s : St} {ts : List Nat} {k : Str} (h : UsedName s ts k) : lower k = k := by
  obtain ⟨_, _, _, _, _, d, _, _, rfl, _⟩ := h
  exact lower_lower _

theorem sectionFind_withArgs {s : St} (w : WF True s) {x : Nat} {l : List Str} {n : Str} (hr : startsWith (py!"root.") (lower n) = true)
    (hd : s.derived.get? (lower n) = none) : sectionFind (withArgs s x l) x n = sectionFind s x n := by
  have hs : SameFind s (withArgs s x l) := by
    refine ⟨rfl, rfl, rfl, rfl, Nat.le_refl _, fun y _ => ?_, fun y _ => ?_, fun y _ _ => ?_⟩
    · rw [heap_withArgs s x l y]
    · rw [heap_withArgs s x l y]; exact ⟨rfl, rfl, rfl⟩
    · rw [heap_withArgs s x l y]
  have hv : ((withArgs s x l).heap x).value = (s.heap x).value := by simp [withArgs, St.setObj]
  unfold sectionFind
  rw [hv]
  split
  · exact find_same w hs hr hd _
  · exact find_same w hs hr hd _
  · rfl

theorem cleaned_run {s : St} {x : Nat} {tables : List Nat} (h : SchemaOk s x tables) :
    ∃ (s' : St) (l new : List Str) (gone : List Nat), cleanUnused s = .ok () s' ∧ Pruned (withArgs s x l) s' gone ∧
      (∀ c ∈ cols (s.heap x).args, c ∈ cols l ↔ UsedName s tables (lower c)) ∧
      (∃ kept, kept.Sublist (cols (s.heap x).args) ∧ cols l = kept ++ new.map title) ∧ new.Nodup ∧
      (∀ k, k ∈ new ↔ UsedName s tables k ∧ ∀ c ∈ cols (s.heap x).args, lower c ≠ k) ∧
      ∀ d, d ∈ gone ↔ EmptyProp s tables d := by
  have w : WF True s := h.reach.wf fun _ op ho => ho
  obtain ⟨used, hu, hused⟩ := usedInTables_text h.named h.text
  have hx := w.secsLt _ (Dict.mem_of_get? h.sec)
  have hhave : ∀ k, k ∈ ((s.heap x).args.map lower) → k ≠ [] → strip k = k → ∃ c ∈ cols (s.heap x).args, lower c = k := by
    intro k hk hne hst
    obtain ⟨a, h1, rfl⟩ := List.mem_map.1 hk
    have : strip a = a := by
      rcases h.trimmed a h1 with e | e
      · exact e
      · rw [strip_lower, e] at hst
        exact absurd hst.symm hne
    refine ⟨a, ?_, rfl⟩
    unfold cols
    refine List.mem_filter.2 ⟨List.mem_map.2 ⟨a, h1, this⟩, ?_⟩
    simp only [decide_eq_true_eq]
    rintro rfl
    exact hne rfl
  have hcols : ∀ c ∈ cols (s.heap x).args, c ∈ (s.heap x).args := by
    intro c hc
    unfold cols at hc
    obtain ⟨h1, h2⟩ := List.mem_filter.1 hc
    obtain ⟨a, h3, rfl⟩ := List.mem_map.1 h1
    rcases h.trimmed a h3 with e | e
    · rw [e]; exact h3
    · rw [e] at h2; simp at h2
  obtain ⟨l1, r1, c1⟩ := removeArgs_run (x := x) (s.env.setOrd (((s.heap x).args.map lower).filter fun a => decide (a ∉ used)).eraseDups) s
  have hc1 : ∀ c, c ∈ cols l1 ↔ c ∈ cols (s.heap x).args ∧ UsedName s tables (lower c) := by
    intro c
    rw [c1, List.mem_filter]
    refine and_congr_right fun hc => ?_
    simp only [decide_eq_true_eq]
    constructor
    · intro hh
      by_contra hn
      refine hh (lower c) ?_ (lower_lower c).symm
      rw [(h.order _).mem_iff, List.mem_eraseDups, List.mem_filter]
      refine ⟨List.mem_map.2 ⟨c, hcols c hc, rfl⟩, ?_⟩
      simp only [decide_eq_true_eq, hused]
      exact hn
    · intro hh a ha e
      rw [(h.order _).mem_iff, List.mem_eraseDups, List.mem_filter] at ha
      obtain ⟨b, _, rfl⟩ := List.mem_map.1 ha.1
      have := ha.2
      simp only [decide_eq_true_eq, hused] at this
      rw [lower_lower] at e
      rw [e] at hh
      exact this hh
  obtain ⟨new, hnew⟩ : ∃ new, new = s.env.setOrd (used.filter fun a => decide (a ∉ ((s.heap x).args.map lower))).eraseDups := ⟨_, rfl⟩
  have hmem : ∀ k, k ∈ new ↔ UsedName s tables k ∧ k ∉ (s.heap x).args.map lower := by
    intro k
    rw [hnew, (h.order _).mem_iff, List.mem_eraseDups, List.mem_filter, hused]
    simp only [decide_eq_true_eq]
  have hnd : new.Nodup := by
    rw [hnew, (h.order _).nodup_iff]
    exact nodup_dedup _ _ (Nat.le_refl _)
  obtain ⟨l2, r2, c2⟩ := addArgs_run (x := x) new (withArgs s x l1) hnd
    (fun a ha => by
      have hua := ((hmem a).1 ha).1
      exact ⟨(h.names a hua).1, (h.names a hua).2, low_used hua⟩)
    (fun a ha c hc e => by
      rw [args_withArgs] at hc
      exact ((hmem a).1 ha).2 (List.mem_map.2 ⟨c, hcols c ((hc1 c).1 hc).1, e⟩))
  rw [args_withArgs] at c2
  rw [withArgs_withArgs] at r2
  have hf : sectionFind (withArgs s x l2) x (py!"Root.Table") = .ok tables := by
    rw [sectionFind_withArgs w (by decide) (by rw [show lower (py!"Root.Table") = py!"root.table" by decide]; exact h.noDerived)]
    exact h.found
  have hsec : s.isSec x := ⟨hx.1, hx.2.1⟩
  have hreach1 : Reach Op.noAddChild (withArgs s x l1) :=
    reach_forL (f := fun a => .removeArg x (title a)) (fun _ => trivial) (fun _ _ => Iff.rfl) (fun a s => ⟨_, C23_remove s x (title a)⟩) h.reach hsec r1
  have hreach2 : Reach Op.noAddChild (withArgs s x l2) := by
    refine reach_forL (f := fun a => .addArg x a false) (fun _ => trivial) (fun _ _ => Iff.rfl)
      (fun a s => ⟨addArgList (s.heap x).args a false, by simp [Op.run, addArg, withArgs]⟩) hreach1 ⟨hsec.1, ?_⟩ r2
    rw [(heap_fields s x l1 x).2.2.2.1]; exact hsec.2
  obtain ⟨s', gone, r3, p3, g3⟩ := dropBlankTables_run hreach2 (ts := tables) (Pruned.refl hreach2) (fun g hg => by cases hg)
    (fun t ht => by rw [(heap_fields s x l2 t).2.1]; exact h.named t ht)
    (fun t ht c hc d hd => by
      rw [columnsOf_withArgs] at hc
      rw [(heap_fields s x l2 c).1] at hd
      rw [(heap_fields s x l2 d).2.2.2.2]
      refine ⟨h.text t ht c hc d hd, fun hf => ?_⟩
      have := h.inner d ⟨t, ht, c, hc, hd, hf⟩
      exact ⟨by rw [(heap_fields s x l2 d).2.2.2.1]; exact this.notSec, by rw [(heap_fields s x l2 d).2.2.1]; exact this.notRoot⟩)
  refine ⟨s', l2, new, gone, ?_, p3, fun c hc => ?_, ⟨cols l1, ?_, c2⟩, hnd, fun k => ?_, fun d => ?_⟩
  · unfold cleanUnused
    have e1 : getSection s (py!"Schema") = .ok x := by
      unfold getSection
      rw [show lower (py!"Schema") = py!"schema" by decide, h.sec]
    simp only [bind_run, lift_run, obj_run, get_run, e1, h.found, hu, r1]
    rw [← hnew]
    simp only [r2, hf, r3]
  · rw [c2, List.mem_append, hc1 c]
    constructor
    · rintro (h1 | h1)
      · exact h1.2
      · obtain ⟨k, h2, rfl⟩ := List.mem_map.1 h1
        rw [lower_title, low_used ((hmem k).1 h2).1]
        exact ((hmem k).1 h2).1
    · exact fun h1 => .inl ⟨hc, h1⟩
  · rw [c1]; exact List.filter_sublist
  · rw [hmem k]
    refine and_congr_right fun hk => ⟨fun h1 c hc e => h1 (List.mem_map.2 ⟨c, hcols c hc, e⟩), fun h1 h2 => ?_⟩
    obtain ⟨c, hc, e⟩ := hhave k h2 (h.names k hk).2 (h.names k hk).1
    exact h1 c hc e
  · rw [g3 d, emptyProp_withArgs]
    simp

/-- **C61.** `clean_unused_schema_terms` returns. Afterwards the columns of the Schema section are its former columns that are in use, in their
order, followed by one new column in title case for each name in use that it did not have. The empty properties of the columns of the tables
are gone. Nothing else has changed. -/
theorem C61_cleaned {s : St} {x : Nat} {tables : List Nat} (h : SchemaOk s x tables) :
    ∃ (s' : St) (l new : List Str) (gone : List Nat), cleanUnused s = .ok () s' ∧ s' = gone.foldl without (withArgs s x l) ∧
      (∀ c ∈ cols (s.heap x).args, c ∈ cols l ↔ UsedName s tables (lower c)) ∧
      (∃ kept, kept.Sublist (cols (s.heap x).args) ∧ cols l = kept ++ new.map title) ∧ new.Nodup ∧
      (∀ k, k ∈ new ↔ UsedName s tables k ∧ ∀ c ∈ cols (s.heap x).args, lower c ≠ k) ∧
      ∀ d, d ∈ gone ↔ EmptyProp s tables d := by
  obtain ⟨s', l, new, gone, h1, p, h2⟩ := cleaned_run h
  exact ⟨s', l, new, gone, h1, p.eq, h2⟩

/-- **C61.** Compared without regard to case, the columns of the Schema section are then exactly the names in use. -/
theorem C61_used {s : St} {x : Nat} {tables : List Nat} (h : SchemaOk s x tables) {s' : St} (hr : cleanUnused s = .ok () s') (k : Str) :
    (∃ c ∈ cols (s'.heap x).args, lower c = k) ↔ UsedName s tables k := by
  obtain ⟨s2, l, new, gone, h1, h2, h3, ⟨kept, h4, h5⟩, _, h7, _⟩ := C61_cleaned h
  rw [hr] at h1
  cases h1
  have hargs : ∀ (g : List Nat) (s : St), ((g.foldl without s).heap x).args = (s.heap x).args := by
    intro g
    induction g with
    | nil => intro s; rfl
    | cons a g ih => intro s; rw [List.foldl_cons, ih]; rfl
  rw [h2, hargs, args_withArgs]
  constructor
  · rintro ⟨c, hc, rfl⟩
    by_cases hm : c ∈ cols (s.heap x).args
    · exact (h3 c hm).1 hc
    · rw [h5, List.mem_append] at hc
      rcases hc with hc | hc
      · exact absurd (h4.subset hc) hm
      · obtain ⟨k, h8, rfl⟩ := List.mem_map.1 hc
        rw [lower_title, low_used ((h7 k).1 h8).1]
        exact ((h7 k).1 h8).1
  · intro hk
    by_cases hm : ∃ c ∈ cols (s.heap x).args, lower c = k
    · obtain ⟨c, hc, rfl⟩ := hm
      exact ⟨c, (h3 c hc).2 hk, rfl⟩
    · have : k ∈ new := (h7 k).2 ⟨hk, fun c hc e => hm ⟨c, hc, e⟩⟩
      refine ⟨title k, ?_, by rw [lower_title, low_used hk]⟩
      rw [h5, List.mem_append]
      exact .inr (List.mem_map.2 ⟨k, this, rfl⟩)

/-- **C61.** No column of the tables keeps an empty property. -/
theorem C61_no_empty {s : St} {x : Nat} {tables : List Nat} (h : SchemaOk s x tables) {s' : St} (hr : cleanUnused s = .ok () s') (d : Nat) :
    ¬ EmptyProp s' tables d := by
  obtain ⟨s2, l, new, gone, h1, p, _, _, _, _, h2⟩ := cleaned_run h
  rw [hr] at h1
  cases h1
  rintro ⟨t, ht, c, hc, hd, hf⟩
  have hval : (s'.heap d).value = (s.heap d).value := by rw [p.rest d]; exact (heap_fields s x l d).2.2.2.2
  have hrt : (s'.heap c).rt = (s.heap c).rt := by rw [p.rest c]; exact (heap_fields s x l c).2.1
  rw [p.kids c, (heap_fields s x l c).1, List.mem_filter] at hd
  have hc' := List.mem_filter.1 hc
  rw [p.kids t, (heap_fields s x l t).1, List.mem_filter, hrt] at hc'
  have : d ∈ gone := (h2 d).2 ⟨t, ht, c, List.mem_filter.2 ⟨hc'.1.1, hc'.2⟩, hd.1, by rw [← hval]; exact hf⟩
  simpa [this] using hd.2

/-- **C61.** Without a Schema section the call raises `KeyError` and changes nothing. -/
theorem C61_no_schema {s : St} (h : s.sections.get? (py!"schema") = none) : cleanUnused s = .err .keyError s := by
  unfold cleanUnused
  have e1 : getSection s (py!"Schema") = .error .keyError := by
    unfold getSection
    rw [show lower (py!"Schema") = py!"schema" by decide, h]
  simp only [bind_run, lift_run, e1]

/-! ## A document -/

instance decTextCell : (v : Val) → Decidable (TextCell v)
  | .none => .isTrue trivial
  | .str _ => .isTrue trivial
  | .fls | .int _ | .obj _ => .isFalse id

/-- The two quantifications over all terms and names follow from one over the properties of the columns. -/
theorem SchemaOk.ofProps {s : St} {x : Nat} {tables : List Nat} (reach : Reach Op.noAddChild s) (sec : s.sections.get? (py!"schema") = some x)
    (noDerived : s.derived.get? (py!"root.table") = none) (searchable : ∀ t ∈ s.terms, Searchable s.heap t) {n : Str}
    (title : (s.heap x).value = .str n) (found : sectionFind s x (py!"Root.Table") = .ok tables)
    (props : ∀ t ∈ tables, ∀ c ∈ columnsOf s t, ∀ d ∈ (s.heap c).children, TextCell (s.heap d).value ∧ (s.heap d).cls.isSection = false ∧
      lower (s.heap d).pt ≠ ROOT ∧ strip (lower (s.heap d).rt) = lower (s.heap d).rt ∧ lower (s.heap d).rt ≠ [])
    (trimmed : ∀ a ∈ (s.heap x).args, strip a = a ∨ strip a = []) (order : ∀ l, (s.env.setOrd l).Perm l) : SchemaOk s x tables where
  reach := reach
  sec := sec
  noDerived := noDerived
  searchable := searchable
  listed := ⟨n, title, by
    rw [sectionFind_tables noDerived searchable title] at found
    exact (Except.ok.inj found).symm⟩
  text t ht c hc d hd := (props t ht c hc d hd).1
  inner := fun d ⟨t, ht, c, hc, hd, _⟩ => ⟨(props t ht c hc d hd).2.1, (props t ht c hc d hd).2.2.1⟩
  trimmed := trimmed
  names := fun k ⟨t, ht, c, hc, pre, d, post, e, hk, _⟩ => by
    have := props t ht c hc d (by rw [e]; simp)
    rw [hk] at this
    exact this.2.2.2
  order := order

/-- Two columns, one of them unused; a property in use without a column; an empty property. -/
def schemaRows : List (List Str) := [[py!"Section", py!"Schema", py!"DataType", py!"Width"], [py!"Table", py!"t1"],
  [py!"Table.Column", py!"c1", py!"text"], [py!"Column.Note", py!""], [py!"Column.Format", py!"x"]]

def schemaDoc : St := exParse schemaRows

theorem schemaDoc_searchable : ∀ t ∈ schemaDoc.terms, Searchable schemaDoc.heap t := by
  have h0 : schemaDoc.terms = [2] := by decide +kernel
  have h1 : (schemaDoc.heap 2).sec = some 1 := by decide +kernel
  have h2 : (schemaDoc.heap 1).value = .str (py!"Schema") := by decide +kernel
  intro t ht
  rw [h0, List.mem_singleton] at ht
  subst ht
  refine ⟨fun h => ?_, fun x hx => ?_⟩
  · rw [h1] at h; cases h
  · rw [h1] at hx; cases hx; exact ⟨_, h2⟩

theorem schemaDoc_ok : SchemaOk schemaDoc 1 [2] :=
  .ofProps (exParse_reach schemaRows trivial) (by decide +kernel) (by decide +kernel)
    schemaDoc_searchable (n := py!"Schema") (by decide +kernel) (by decide +kernel)
    (by decide +kernel) (by decide +kernel) fun _ => by rw [show schemaDoc.env = exEnv from exParse_env _]; exact .refl _

example : ∃ s', cleanUnused schemaDoc = .ok () s' := (C61_cleaned schemaDoc_ok).imp fun _ ⟨_, _, _, h, _⟩ => h
example : ((after cleanUnused schemaDoc).heap 1).args = [py!"DataType", py!"Format"] := by decide +kernel
example : EmptyProp schemaDoc [2] 5 := ⟨2, by decide, 3, by decide +kernel, by decide +kernel, by decide +kernel⟩
example : UsedName schemaDoc [2] (py!"datatype") :=
  ⟨2, by decide, 3, by decide +kernel, [], 4, [5, 6], by decide +kernel, by decide +kernel, by decide +kernel, by decide +kernel⟩
example : (exParse [[py!"Table", py!"t1"]]).sections.get? (py!"schema") = none := by decide +kernel

/-- An empty Schema section to which `add_arg` added a padded column name. -/
def paddedDoc : St := after (do let x ← newSection (py!"Schema"); addArg x (py!" width ")) exDoc

/-- **C61, where it fails.** A column whose name has blanks around it stays although nothing uses it: the name handed to `remove_arg` has the
blanks, the names it is compared with have lost theirs. -/
theorem C61_padded_witness : (paddedDoc.heap 1).args = [py!" Width "] ∧ sectionFind paddedDoc 1 (py!"Root.Table") = .ok [] ∧
    (∃ s', cleanUnused paddedDoc = .ok () s' ∧ (s'.heap 1).args = [py!"Width"]) ∧ ¬ UsedName paddedDoc [] (py!"width") := by
  refine ⟨by decide +kernel, by decide +kernel, ⟨after cleanUnused paddedDoc, ok_after (by decide +kernel), by decide +kernel⟩, ?_⟩
  rintro ⟨t, ht, _⟩
  cases ht

end Metatab
