import Verif.Lemmas.Answers
import Verif.Lemmas.Shown
import Verif.Spec.DictOutline
/-! # The dict of a document is the dict of its outline -/
namespace Metatab
open Py _root_.Spec

/-! ## Dicts -/

theorem mem_distinctNames {n : Str} : ∀ {l : List Str}, n ∈ distinctNames l ↔ n ∈ l
  | [] => Iff.rfl
  | x :: l => by
    rw [distinctNames, List.mem_cons, List.mem_cons, List.mem_filter, mem_distinctNames]
    by_cases h : n = x <;> simp [h]

theorem nodup_distinctNames : ∀ (l : List Str), (distinctNames l).Nodup
  | [] => List.nodup_nil
  | x :: l => by
    rw [distinctNames, List.nodup_cons]
    refine ⟨?_, (nodup_distinctNames l).filter _⟩
    simp

theorem get?_entries {f : Str → Option DVal} {n : Str} : ∀ {ns : List Str}, ns.Nodup →
    Dict.get? (ns.filterMap fun n => (f n).map fun v => (n, v)) n = if n ∈ ns then f n else none
  | [], _ => rfl
  | x :: ns, h => by
    obtain ⟨h1, h2⟩ := List.nodup_cons.1 h
    have ih := get?_entries (f := f) (n := n) h2
    by_cases e : x = n
    · subst e
      rw [if_neg h1] at ih
      rw [if_pos List.mem_cons_self]
      cases hf : f x with
      | none => rw [List.filterMap_cons_none (by rw [hf]; rfl)]; exact ih
      | some v => rw [List.filterMap_cons_some (by rw [hf]; rfl), Dict.get?_cons, if_pos rfl]
    · have hm : (n ∈ x :: ns) = (n ∈ ns) := by simp [Ne.symm e]
      simp only [hm]
      cases hf : f x with
      | none => rw [List.filterMap_cons_none (by rw [hf]; rfl)]; exact ih
      | some v => rw [List.filterMap_cons_some (by rw [hf]; rfl), Dict.get?_cons, if_neg e]; exact ih

theorem keys_entries {f : Str → Option DVal} : ∀ {ns : List Str}, (∀ n ∈ ns, f n ≠ none) →
    Dict.keys (ns.filterMap fun n => (f n).map fun v => (n, v)) = ns
  | [], _ => rfl
  | x :: ns, h => by
    cases hf : f x with
    | none => exact absurd hf (h x List.mem_cons_self)
    | some v =>
      rw [List.filterMap_cons_some (by rw [hf]; rfl)]
      exact congrArg (x :: ·) (keys_entries fun n hn => h n (List.mem_cons_of_mem _ hn))

theorem entryAny_none {l : List DVal} : entryAny l = none ↔ l = [] := by
  match l with
  | [] => simp [entryAny]
  | [a] => simp [entryAny]
  | a :: b :: l => simp [entryAny]

theorem named_empty {l : List (Str × DVal)} {n : Str} : (l.filter fun kv => decide (kv.1 = n)).map Prod.snd = [] ↔ n ∉ l.map Prod.fst := by
  rw [List.map_eq_nil_iff, List.filter_eq_nil_iff]
  constructor
  · intro h hn
    obtain ⟨kv, h1, h2⟩ := List.mem_map.1 hn
    exact h kv h1 (by simpa using h2)
  · intro h kv hkv e
    exact h (List.mem_map.2 ⟨kv, hkv, by simpa using e⟩)

theorem grouped_keys (l : List (Str × DVal)) : Dict.keys (grouped l) = distinctNames (l.map Prod.fst) :=
  keys_entries fun n hn e => named_empty.1 (entryAny_none.1 e) (mem_distinctNames.1 hn)

theorem grouped_get (l : List (Str × DVal)) (n : Str) :
    Dict.get? (grouped l) n = entryAny ((l.filter fun kv => decide (kv.1 = n)).map Prod.snd) := by
  unfold grouped
  rw [get?_entries (nodup_distinctNames _)]
  split
  · rfl
  · next h => rw [mem_distinctNames] at h; rw [named_empty.2 h]; rfl

theorem grouped_nodup (l : List (Str × DVal)) : (Dict.keys (grouped l)).Nodup := by
  rw [grouped_keys]; exact nodup_distinctNames _

theorem dict_ext {α : Type} : ∀ {d e : Dict α}, d.keys.Nodup → d.keys = e.keys → (∀ n, d.get? n = e.get? n) → d = e
  | [], [], _, _, _ => rfl
  | [], _ :: _, _, h, _ => by cases h
  | _ :: _, [], _, h, _ => by cases h
  | (k, v) :: d, (k', v') :: e, hn, h, hg => by
    obtain ⟨rfl, hk⟩ : k = k' ∧ Dict.keys d = Dict.keys e := by
      have := h
      simp only [Dict.keys, List.map_cons, List.cons.injEq] at this
      exact this
    have h1 := hg k
    rw [Dict.get?_cons, if_pos rfl, Dict.get?_cons, if_pos rfl] at h1
    injection h1 with h1
    subst h1
    obtain ⟨hk1, hk2⟩ : k ∉ Dict.keys d ∧ (Dict.keys d).Nodup := List.nodup_cons.1 hn
    rw [dict_ext hk2 hk fun n => ?_]
    by_cases e : k = n
    · subst e
      rw [Dict.get?_eq_none.2 hk1, Dict.get?_eq_none.2 (hk ▸ hk1)]
    · have := hg n
      rwa [Dict.get?_cons, if_neg e, Dict.get?_cons, if_neg e] at this

/-! ## Children without a declared type -/

/-- The tree is converted to the value and goes under the name. -/
structure ConvAs (rvn : Bool) (k : Tree) (e : Str × DVal) : Prop where
  name : k.obj.rt = e.1
  low : lower e.1 = e.1
  type : k.obj.cpt ∉ specialTypes
  conv : k.toDict rvn = .ok e.2

theorem dictChild_total {d : Dict DVal} {rt cpt : Str} (hl : lower rt = rt) (hc : cpt ∉ specialTypes) (v : DVal) :
    ∃ d', dictChild d rt cpt (.ok v) = .ok d' := by
  unfold specialTypes at hc
  simp only [List.mem_cons, List.not_mem_nil, or_false, not_or] at hc
  unfold dictChild
  rw [if_neg hc.1, if_neg hc.2.1, if_neg hc.2.2.1, if_neg hc.2.2.2, hl]
  cases d.get? rt with
  | none => exact ⟨_, rfl⟩
  | some x => cases x <;> exact ⟨_, rfl⟩

theorem kidsDict_some {rvn : Bool} {ks : List Tree} {l : List (Str × DVal)} (h : List.Forall₂ (ConvAs rvn) ks l) :
    ∀ d, ∃ d', kidsDict rvn d ks = .ok d' := by
  induction h with
  | nil => intro d; exact ⟨d, by rw [kidsDict]⟩
  | cons hk _ ih =>
    intro d
    rw [kidsDict, hk.conv]
    obtain ⟨d1, h1⟩ := dictChild_total (d := d) (hk.name ▸ hk.low) hk.type _
    rw [h1]
    exact ih d1

theorem conv_as {rvn : Bool} {ks : List Tree} {l : List (Str × DVal)} (h : List.Forall₂ (ConvAs rvn) ks l) :
    (ks.map fun k => lower k.obj.rt) = l.map Prod.fst ∧
    ∀ n, ((ks.filter fun k => lower k.obj.rt = n).map (Tree.conv rvn)) = (l.filter fun kv => decide (kv.1 = n)).map Prod.snd := by
  induction h with
  | nil => exact ⟨rfl, fun _ => rfl⟩
  | @cons k e ks l hk _ ih =>
    have hlow : lower k.obj.rt = e.1 := by rw [hk.name, hk.low]
    refine ⟨by rw [List.map_cons, List.map_cons, hlow, ih.1], fun n => ?_⟩
    by_cases hn : e.1 = n
    · rw [List.filter_cons_of_pos (by simp [hlow, hn]), List.filter_cons_of_pos (by simp [hn]), List.map_cons, List.map_cons, ih.2, conv_eq hk.conv]
    · rw [List.filter_cons_of_neg (by simp [hlow, hn]), List.filter_cons_of_neg (by simp [hn]), ih.2]

theorem kidsDict_grouped {rvn : Bool} {ks : List Tree} {l : List (Str × DVal)} (h : List.Forall₂ (ConvAs rvn) ks l) :
    kidsDict rvn [] ks = .ok (grouped l) := by
  obtain ⟨d, hd⟩ := kidsDict_some h []
  rw [hd]
  obtain ⟨h1, h2⟩ := conv_as h
  have hk : d.keys = distinctNames (l.map Prod.fst) := by
    have := kidsDict_keys hd
    rw [h1] at this
    rw [this]
    show [] ++ _ = _
    rw [List.nil_append, List.filter_eq_self]
    intro a _
    exact decide_eq_true (by simp [Dict.keys])
  refine congrArg _ (dict_ext (kidsDict_nodup (d := []) List.nodup_nil hd) (by rw [hk, grouped_keys]) fun n => ?_)
  rw [grouped_get, ← h2]
  have hall : ∀ k ∈ ks, lower k.obj.rt = k.obj.rt ∧ k.obj.cpt ∉ specialTypes := by
    clear * - h
    induction h with
    | nil => intro k hk; cases hk
    | cons hk _ ih =>
      intro k' hk'
      rcases List.mem_cons.1 hk' with rfl | hk'
      · exact ⟨by rw [hk.name, hk.low], hk.type⟩
      · exact ih k' hk'
  have := kidsDict_shape (rvn := rvn) (n := n) (Q := fun o p => o = entryAny p) (ks := ks) (d := []) (d' := d) (p := []) ?_ (by simp) rfl hd
  · simpa using this
  · intro k hk hn d d' p v hp hq hv hd'
    subst hn
    exact step_any (hall k hk).2 (hall k hk).1 hp hq hd'

/-! ## Items -/

/-- The terms given and all below them have the value name `@value` and no declared child property type. -/
def PlainBelow (s : St) (ts : List Nat) : Prop :=
  ∀ c, (c ∈ ts ∨ ∃ t ∈ ts, Hangs s.heap t c) → (s.heap c).tvn = py!"@value" ∧ (s.heap c).cpt ∉ specialTypes

theorem dictValue_plain {rvn : Bool} {o : Obj} (h : o.tvn = py!"@value") (d : Dict DVal) : dictValue rvn o d = withOwn o.value d := by
  unfold dictValue withOwn
  have : (if rvn then lower o.tvn else py!"@value") = py!"@value" := by
    cases rvn
    · rfl
    · rw [h]; decide
  rw [this]

mutual
theorem dict_item {s : St} (w : WF True s) {rvn : Bool} {x : Nat} : ∀ (i : Item) {f t : Nat} {tr : Tree}, ShowsItem s x i t → PlainBelow s [t] →
    treeF s.heap f t = .ok tr → tr.toDict rvn = .ok i.dict
  | .mk n v ks, f, t, tr => by
    intro h hp htr
    cases f with
    | zero => cases htr
    | succ f =>
      obtain ⟨trs, htrs, rfl⟩ := treeF_iff.1 htr
      obtain ⟨h1, h2, -, -, h5⟩ := showsItem_mk.1 h
      have hk := dict_items w (rvn := rvn) ks h5 (fun c hc => by
        refine hp c (.inr ⟨t, List.mem_cons_self, ?_⟩)
        rcases hc with hc | ⟨k, hk, hc⟩
        · exact .kid hc
        · exact .deeper hk hc) htrs
      have hg := kidsDict_grouped hk
      have hlen := hk.length_eq
      rw [Item.dict]
      cases trs with
      | nil =>
        cases ks with
        | nil => rw [Tree.toDict, h2]; rfl
        | cons k ks => rw [itemDicts] at hlen; cases hlen
      | cons tr trs =>
        cases ks with
        | nil => rw [itemDicts] at hlen; cases hlen
        | cons k ks =>
          rw [Tree.toDict, hg]
          have := hp t (.inl List.mem_cons_self)
          rw [if_neg (by simp)]
          simp only [bind, Except.bind, pure, Except.pure]
          rw [dictValue_plain this.1, h2]
theorem dict_items {s : St} (w : WF True s) {rvn : Bool} {x : Nat} : ∀ (ks : List Item) {f : Nat} {cs : List Nat} {trs : List Tree}, ShowsItems s x ks cs →
    PlainBelow s cs → List.Forall₂ (fun c k => treeF s.heap f c = .ok k) cs trs → List.Forall₂ (ConvAs rvn) trs (itemDicts ks)
  | [], f, cs, trs => by
    intro h _ ht
    rw [ShowsItems] at h
    subst h
    cases ht
    rw [itemDicts]
    exact .nil
  | k :: ks, f, cs, trs => by
    intro h hp ht
    rw [ShowsItems] at h
    obtain ⟨c, r, rfl, h1, h2⟩ := h
    cases ht with
    | cons hc hr =>
      rw [itemDicts]
      refine .cons ?_ (dict_items w ks h2 (fun c hc => hp c ?_) hr)
      · have hobj := treeF_obj hc
        have hn : (s.heap c).rt = k.name := by rw [item_eta k] at h1; exact (showsItem_mk.1 h1).1
        refine ⟨by rw [hobj, hn], ?_, by rw [hobj]; exact (hp c (.inl List.mem_cons_self)).2, dict_item w k h1 (fun c' hc' => hp c' ?_) hc⟩
        · show lower k.name = k.name
          rw [← hn]; exact (w.low c).2
        · rcases hc' with hc' | ⟨t, ht, hc'⟩
          · exact .inl (List.mem_cons.2 (.inl (List.mem_singleton.1 hc')))
          · exact .inr ⟨t, List.mem_cons.2 (.inl (List.mem_singleton.1 ht)), hc'⟩
      · rcases hc with hc | ⟨t, ht, hc⟩
        · exact .inl (List.mem_cons_of_mem _ hc)
        · exact .inr ⟨t, List.mem_cons_of_mem _ ht, hc⟩
end

theorem itemDicts_append : ∀ (a b : List Item), itemDicts (a ++ b) = itemDicts a ++ itemDicts b
  | [], b => by rw [itemDicts]; rfl
  | k :: a, b => by rw [List.cons_append, itemDicts, itemDicts, itemDicts_append a b]; rfl

/-! ## Documents -/

theorem dicts_doc {s : St} (w : WF True s) {rvn : Bool} : ∀ {secs : Dict Nat} {D : List Part}, List.Forall₂ (ShowsPart s) secs D →
    PlainBelow s (secs.flatMap fun kv => (s.heap kv.2).terms) →
    ∃ trs, (secs.flatMap fun kv => (s.heap kv.2).terms).mapM (tree s) = .ok trs ∧
      List.Forall₂ (ConvAs rvn) trs (itemDicts (D.flatMap Part.items))
  | [], [], _, _ => ⟨[], rfl, by rw [List.flatMap_nil, itemDicts]; exact .nil⟩
  | kv :: secs, d :: D, .cons h1 h2, hp => by
    rw [List.flatMap_cons] at hp ⊢
    obtain ⟨trs, e1, e2⟩ := dicts_doc w (rvn := rvn) h2 fun c hc => hp c (by
      rcases hc with hc | ⟨t, ht, hc⟩
      · exact .inl (List.mem_append_right _ hc)
      · exact .inr ⟨t, List.mem_append_right _ ht, hc⟩)
    obtain ⟨trs0, e3⟩ := tree_items w d.items (f := s.next + 1) h1.items fun c _ => by omega
    have e4 := dict_items w (rvn := rvn) d.items h1.items (fun c hc => hp c (by
      rcases hc with hc | ⟨t, ht, hc⟩
      · exact .inl (List.mem_append_left _ hc)
      · exact .inr ⟨t, List.mem_append_left _ ht, hc⟩)) e3
    refine ⟨trs0 ++ trs, ?_, ?_⟩
    · rw [List.mapM_append]
      have : ((s.heap kv.2).terms).mapM (tree s) = .ok trs0 := by
        generalize (s.heap kv.2).terms = ts at e3
        clear * - e3
        induction e3 with
        | nil => rfl
        | cons hc _ ih =>
          rw [List.mapM_cons, ih]
          unfold tree
          rw [hc]
          rfl
      rw [this, e1]
      rfl
    · rw [List.flatMap_cons, itemDicts_append]
      exact List.rel_append e4 e2

theorem plain_below {s : St} (hp : PlainTerms s) (hn : s.sections.keys.Nodup) : PlainBelow s (allSectionTerms s) := by
  have hin : ∀ t ∈ allSectionTerms s, InDoc s t := by
    intro t ht
    obtain ⟨kv, h1, h2⟩ := List.mem_flatMap.1 ht
    exact .listed (Dict.get?_of_mem hn h1) h2
  have hh : ∀ {t c}, Hangs s.heap t c → InDoc s t → InDoc s c := by
    intro t c h
    induction h with
    | kid hc => exact fun ht => .child ht hc
    | deeper hk _ ih => exact fun ht => ih (.child ht hk)
  rintro c (hc | ⟨t, ht, hc⟩)
  · exact hp c (hin c hc)
  · exact hp c (hh hc (hin t ht))

theorem del_set {d : Dict DVal} (hn : d.keys.Nodup) (k : Str) (v : DVal) : Dict.del (d.set k v) k = d.filter fun kv => decide (kv.1 ≠ k) := by
  refine dict_ext (Dict.nodup_del (Dict.nodup_set hn _ _) _) ?_ fun n => ?_
  · rw [Dict.keys_del (Dict.nodup_set hn _ _), Dict.keys_set]
    have : Dict.keys (d.filter fun kv => decide (kv.1 ≠ k)) = d.keys.filter fun n => decide (n ≠ k) := by
      show List.map Prod.fst _ = (List.map Prod.fst d).filter _
      rw [List.filter_map]; rfl
    rw [this]
    split
    · rfl
    · rw [List.filter_append]; simp
  · rw [Dict.get?_del (Dict.nodup_set hn _ _), Dict.get?_filter d (fun n => decide (n ≠ k)), Dict.get?_set]
    by_cases e : k = n
    · simp [e]
    · simp [e, Ne.symm e]

/-- The dict of a document is the dict of its outline. -/
theorem docAsDict_shows {s : St} (w : WF True s) {D : List Part} (h : Shows s D) (hp : PlainTerms s) (rvn : Bool) :
    (docAsDict rvn s).val = .ok (outlineDict rvn D) := by
  rw [docAsDict_val (fun kv hkv => (w.secsLt kv hkv).1)]
  · obtain ⟨trs, e1, e2⟩ := dicts_doc w (rvn := rvn) h.parts (plain_below hp w.secsNodup)
    unfold dictOf
    rw [show (allSectionTerms s).mapM (tree s) = .ok trs from e1]
    have hg := kidsDict_grouped e2
    have hlen := e2.length_eq
    unfold outlineDict
    simp only [bind, Except.bind]
    generalize D.flatMap Part.items = is at *
    cases trs with
    | nil =>
      cases is with
      | nil => rw [Tree.toDict]; rfl
      | cons k ks => rw [itemDicts] at hlen; cases hlen
    | cons tr trs =>
      cases is with
      | nil => rw [itemDicts] at hlen; cases hlen
      | cons k ks =>
        rw [Tree.toDict, hg, if_neg (by simp)]
        simp only [bind, Except.bind, pure, Except.pure]
        rw [dictValue_plain rfl]
        show Except.ok (dropValue rvn _) = _
        have hn := grouped_nodup (itemDicts (k :: ks))
        cases rvn
        · rfl
        · exact congrArg Except.ok (congrArg DVal.dict (del_set hn _ _))
  · intro t ht
    obtain ⟨kv, -, h⟩ := List.mem_flatMap.1 ht
    exact ⟨w.secTermsLt _ _ h, fun c hc => hangs_lt w hc⟩

/-! ## Children in another order -/

theorem itemDicts_map : ∀ (ks : List Item), itemDicts ks = ks.map fun k => (k.name, k.dict)
  | [] => by rw [itemDicts]; rfl
  | k :: ks => by rw [itemDicts, itemDicts_map ks]; rfl

/-- The same keys, and alike values under each of them. -/
structure EntriesAlike (d d' : Dict DVal) : Prop where
  keys : (Dict.keys d).Perm (Dict.keys d')
  get : ∀ n v, Dict.get? d n = some v → ∃ v', Dict.get? d' n = some v' ∧ DictAlike v v'

theorem EntriesAlike.alike {d d' : Dict DVal} (h : EntriesAlike d d') : DictAlike (.dict d) (.dict d') := by
  refine .dict (fun n => (Dict.get? d' n).getD (.val .none)) h.keys (fun n v hv => ?_) fun n hn => ?_
  · obtain ⟨v', h1, h2⟩ := h.get n v hv
    rw [h1]; exact h2
  · cases hg : Dict.get? d' n with
    | none => exact absurd (h.keys.mem_iff.1 hn) (Dict.get?_eq_none.1 hg)
    | some v => rfl

theorem entriesAlike_own {d d' : Dict DVal} (h : EntriesAlike d d') (v : Val) : EntriesAlike (withOwn v d) (withOwn v d') := by
  unfold withOwn
  split
  · refine ⟨?_, fun n x hx => ?_⟩
    · rw [Dict.keys_set, Dict.keys_set]
      by_cases hm : py!"@value" ∈ Dict.keys d
      · rw [if_pos hm, if_pos (h.keys.mem_iff.1 hm)]; exact h.keys
      · rw [if_neg hm, if_neg fun e => hm (h.keys.mem_iff.2 e)]; exact h.keys.append_right _
    · rw [Dict.get?_set] at hx ⊢
      split at hx
      · next e => cases hx; exact ⟨_, if_pos e, .val v⟩
      · next e =>
        obtain ⟨v', h1, h2⟩ := h.get n x hx
        exact ⟨v', by rw [if_neg e]; exact h1, h2⟩
  · exact h

theorem entriesAlike_filter {d d' : Dict DVal} (h : EntriesAlike d d') (k : Str) :
    EntriesAlike (d.filter fun kv => decide (kv.1 ≠ k)) (d'.filter fun kv => decide (kv.1 ≠ k)) := by
  have hk : ∀ d : Dict DVal, Dict.keys (d.filter fun kv => decide (kv.1 ≠ k)) = d.keys.filter fun n => decide (n ≠ k) := by
    intro d
    show List.map Prod.fst _ = (List.map Prod.fst d).filter _
    rw [List.filter_map]; rfl
  refine ⟨by rw [hk, hk]; exact h.keys.filter _, fun n x hx => ?_⟩
  rw [Dict.get?_filter _ fun n => decide (n ≠ k)] at hx ⊢
  split at hx
  · next e =>
    obtain ⟨v', h1, h2⟩ := h.get n x hx
    exact ⟨v', by rw [if_pos e]; exact h1, h2⟩
  · cases hx

/-- The same name, and alike values. -/
def NamedAlike (a b : Str × DVal) : Prop := a.1 = b.1 ∧ DictAlike a.2 b.2

theorem entryAny_alike {l m l' : List DVal} (h : List.Forall₂ DictAlike l m) (p : m.Perm l') {v : DVal} (hv : entryAny l = some v) :
    ∃ v', entryAny l' = some v' ∧ DictAlike v v' := by
  have hl := h.length_eq
  have hl' := p.length_eq
  match l, l', h with
  | [], _, _ => cases hv
  | [a], [b], .cons hab .nil =>
    cases hv
    obtain rfl := List.singleton_perm_singleton.1 p
    exact ⟨_, rfl, hab⟩
  | a :: b :: l, c :: d :: l', h => cases hv; exact ⟨_, rfl, .list h p⟩
  | [a], [], _ => exact absurd (hl.trans hl') (by simp)
  | [a], _ :: _ :: _, _ => exact absurd (hl.trans hl') (by simp)
  | _ :: _ :: _, [], _ => exact absurd (hl.trans hl') (by simp)
  | _ :: _ :: _, [c], _ => exact absurd (hl.trans hl') (by simp)

theorem grouped_alike {a b c : List (Str × DVal)} (h : List.Forall₂ NamedAlike a b) (p : b.Perm c) : EntriesAlike (grouped a) (grouped c) := by
  have hf : a.map Prod.fst = b.map Prod.fst := by
    clear p
    induction h with
    | nil => rfl
    | cons hab _ ih => rw [List.map_cons, List.map_cons, hab.1, ih]
  have hn : ∀ n, List.Forall₂ DictAlike ((a.filter fun kv => decide (kv.1 = n)).map Prod.snd) ((b.filter fun kv => decide (kv.1 = n)).map Prod.snd) := by
    intro n
    clear p hf
    induction h with
    | nil => exact .nil
    | @cons x y _ _ hab _ ih =>
      by_cases e : x.1 = n
      · rw [List.filter_cons_of_pos (by simp [e]), List.filter_cons_of_pos (by simp [← hab.1, e])]
        exact .cons hab.2 ih
      · rw [List.filter_cons_of_neg (by simp [e]), List.filter_cons_of_neg (by simp [← hab.1, e])]
        exact ih
  refine ⟨?_, fun n v hv => ?_⟩
  · rw [grouped_keys, grouped_keys, hf]
    refine (List.perm_ext_iff_of_nodup (nodup_distinctNames _) (nodup_distinctNames _)).2 fun n => ?_
    rw [mem_distinctNames, mem_distinctNames]
    exact (p.map _).mem_iff
  · rw [grouped_get] at hv ⊢
    exact entryAny_alike (hn n) ((p.filter _).map _) hv

mutual
theorem alike_item : ∀ (i : Item) {j : Item}, Reordered i j → i.name = j.name ∧ DictAlike i.dict j.dict
  | .mk n v ks, j => by
    intro h
    cases h with
    | @mk _ _ _ l ks' h p =>
      refine ⟨rfl, ?_⟩
      have hk := alike_items ks h
      have hlen : ks.length = ks'.length := h.length_eq.trans p.length_eq
      rw [Item.dict, Item.dict]
      have he : ks.isEmpty = ks'.isEmpty := by
        cases ks <;> cases ks' <;> first | rfl | cases hlen
      rw [he]
      split
      · exact .val _
      · refine (entriesAlike_own (grouped_alike hk ?_) _).alike
        rw [itemDicts_map, itemDicts_map]
        exact p.map _
theorem alike_items : ∀ (ks : List Item) {l : List Item}, List.Forall₂ Reordered ks l → List.Forall₂ NamedAlike (itemDicts ks) (itemDicts l)
  | [], l => by
    intro h
    cases h
    rw [itemDicts]
    exact .nil
  | k :: ks, l => by
    intro h
    cases h with
    | cons h1 h2 =>
      rw [itemDicts, itemDicts]
      exact .cons (alike_item k h1) (alike_items ks h2)
end

/-- Outlines that differ in the order of children have alike dicts. -/
theorem outline_alike {D D' : List Part} (h : List.Forall₂ PartReordered D D') (rvn : Bool) : DictAlike (outlineDict rvn D) (outlineDict rvn D') := by
  have hi : List.Forall₂ Reordered (D.flatMap Part.items) (D'.flatMap Part.items) := by
    induction h with
    | nil => exact .nil
    | cons h1 _ ih => rw [List.flatMap_cons, List.flatMap_cons]; exact List.rel_append h1.items ih
  have hlen := hi.length_eq
  have hg := grouped_alike (alike_items _ hi) (.refl _)
  unfold outlineDict
  have he : (D.flatMap Part.items).isEmpty = (D'.flatMap Part.items).isEmpty := by
    generalize D.flatMap Part.items = a at *
    generalize D'.flatMap Part.items = b at *
    cases a <;> cases b <;> first | rfl | cases hlen
  rw [he]
  split
  · exact .val _
  · cases rvn
    · exact (entriesAlike_own hg _).alike
    · exact (entriesAlike_filter hg _).alike

end Metatab
