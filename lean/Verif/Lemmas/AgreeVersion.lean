import Verif.Lemmas.AgreeDoc
import Verif.Lemmas.SameFind
import Verif.Lemmas.StepsClean
import Verif.Props.Columns
/-! # The document and its sections list the same terms: identifiers, versions, names and columns -/
namespace Metatab
open Py _root_.Spec
variable {s : St}

theorem rootDot {name r : Str} (h : lower name = py!"root." ++ r) : RootLevel name := .inr ⟨r, h⟩

theorem listed_ok (w : Inv s) {t : Nat} (h : t ∈ s.terms) : t < s.next ∧ (s.heap t).cls.isSection = false :=
  ⟨(w.termsLt t h).1, (w.termsLt t h).2.1⟩

theorem inDoc_getSection {name : Str} {x : Nat} (h : getSection s name = .ok x) : HasSec s x := by
  unfold getSection at h
  split at h
  · next e => cases h; exact ⟨_, e⟩
  · cases h

theorem part_ok (w : Inv s) {t : Nat} {k : Str} {v : Val} {c : Nat} (h : termFindFirst s t k v = .ok (some c)) :
    c < s.next ∧ (s.heap c).cls.isSection = false := by
  unfold termFindFirst at h
  cases hn : localName s t k with
  | error e => rw [hn] at h; cases h
  | ok n =>
    rw [hn] at h
    have : childNamed s t n v = some c := by simpa [bind, Except.bind, pure, Except.pure] using h
    exact w.kid t c (List.mem_of_find?_eq_some this)

theorem versionTerm_ok (w : Inv s) {v : Nat} (h : versionTerm s = .ok (some v)) : v < s.next ∧ (s.heap v).cls.isSection = false := by
  unfold versionTerm at h
  cases hg : getSection s (py!"Root") with
  | error e => rw [hg] at h; cases h
  | ok x => rw [hg] at h; exact listed_ok w (sectionFindFirst_rootLevel w (rootDot (r := py!"version") rfl) h)

/-- The term found for `Version.Patch` is no section. -/
theorem patch_ok (w : Inv s) {x t : Nat} (h : sectionFindFirst s x (py!"Version.Patch") = .ok (some t)) :
    t < s.next ∧ (s.heap t).cls.isSection = false := by
  have key : ∀ sec, findFirst s (py!"Version.Patch") .fls sec = .ok (some t) → t < s.next ∧ (s.heap t).cls.isSection = false := by
    intro sec h
    unfold findFirst at h
    cases hf : find s (py!"Version.Patch") .fls sec with
    | error e => rw [hf] at h; cases h
    | ok l =>
      rw [hf] at h
      simp only [bind, Except.bind, pure, Except.pure, Except.ok.injEq] at h
      have ht : t ∈ l := List.mem_of_head? h
      unfold find at hf
      rw [w.noDerived] at hf
      simp only [Dict.get?_nil] at hf
      unfold findOne at hf
      have e : (if '.' ∉ lower (py!"Version.Patch") then py!"root." ++ lower (py!"Version.Patch") else lower (py!"Version.Patch")) =
        py!"version.patch" := by decide
      have e2 : startsWith (py!"root.") (py!"version.patch") = false := by decide
      simp only [e, e2, Bool.false_eq_true, if_false, bind, Except.bind] at hf
      cases ha : allTerms s with
      | error e => rw [ha] at hf; cases hf
      | ok g =>
        rw [ha] at hf
        obtain ⟨hg, hp⟩ := filterE_mem hf t ht
        have hlt : t < s.next := by
          rcases mem_allTerms ha hg with ⟨kv, hkv, rfl⟩ | ⟨kv, hkv, h1⟩ | ⟨i, h1⟩
          · exact (w.secOk kv.1 kv.2 (Dict.get?_of_mem w.keysNodup hkv)).1
          · exact (w.termsLt t (w.mine kv.2 ⟨kv.1, Dict.get?_of_mem w.keysNodup hkv⟩ t h1).1).1
          · exact (w.kid i t h1).1
        refine ⟨hlt, ?_⟩
        cases hc : (s.heap t).cls.isSection with
        | false => rfl
        | true =>
          obtain ⟨h1, h2⟩ := w.secName t hlt hc
          unfold findTest at hp
          have e3 : termIs (s.heap t).pt (s.heap t).rt (py!"version.patch") = .ok false := by
            rw [h1, h2]; split <;> rfl
          dsimp only at hp
          rw [e3] at hp
          simp only [bind, Except.bind, pure, Except.pure] at hp
          split at hp
          · cases hp
          · split at hp <;> cases hp
  unfold sectionFindFirst at h
  split at h
  · exact key _ h
  · exact key _ h
  · cases h

theorem at_ensureIdentifier : AT ensureIdentifier (fun _ _ => True) s := by
  unfold ensureIdentifier
  have fin : ∀ t s1, t < s1.next ∧ (s1.heap t).cls.isSection = false → AT (do
      let o ← obj t
      if !o.value.truthy then do
        let s ← M.get
        upd t fun o => { o with value := .str (s.env.uuid s.next) }
      let o ← obj t
      M.assert o.value.truthy) (fun _ _ => True) s1 := by
    intro t s1 ht
    refine at_obj (at_ite (fun _ => ?_) fun _ => ?_)
    · exact at_get (at_bind (at_setValue ht.1 ht.2) fun _ _ _ _ _ => at_obj (at_assert' fun _ => trivial))
    · exact at_obj (at_assert' fun _ => trivial)
  have hr : RootLevel (py!"Root.Identifier") := rootDot (r := py!"identifier") rfl
  refine at_inv fun w => at_lift fun a ha => ?_
  cases a with
  | some t => exact fin t s (listed_ok w (findFirst_rootLevel w hr ha))
  | none =>
    refine at_lift fun x hx => ?_
    exact at_bind (at_newTerm (inDoc_getSection hx) hr) fun t s1 w1 _ h => fin t s1 (listed_ok w1 h)

theorem at_versionPart {v : Nat} {name : Str} {p : Option Nat} (hv : v < s.next)
    (hp : ∀ t, p = some t → t < s.next ∧ (s.heap t).cls.isSection = false) : AT (versionPart v name p) (fun _ _ => True) s := by
  unfold versionPart
  have fin : ∀ t s1, t < s1.next ∧ (s1.heap t).cls.isSection = false → AT (do
      let o ← obj t
      if o.value = .none then upd t fun o => { o with value := .int 0 }) (fun _ _ => True) s1 := by
    intro t s1 ht
    exact at_obj (at_ite (fun _ => at_mono (at_setValue ht.1 ht.2) fun _ _ _ _ _ => trivial) fun _ => at_pure trivial)
  cases p with
  | some t => exact fin t s (hp t rfl)
  | none => exact at_bind (at_newChild0 hv) fun t s1 _ _ h => fin t s1 h.2

theorem at_versionString {v : Nat} (hv : v < s.next) (hns : (s.heap v).cls.isSection = false) : AT (versionString v) (fun _ _ => True) s := by
  unfold versionString
  refine at_lift fun a _ => at_lift fun b _ => at_lift fun c _ => ?_
  split
  · refine at_lift fun x _ => at_lift fun y _ => at_lift fun z _ => ?_
    refine at_bind (at_setValue hv hns) fun _ s1 _ e1 _ => ?_
    refine at_lift fun d _ => ?_
    split
    · exact at_obj (at_pure trivial)
    · exact at_lift fun u _ => at_bind (at_setValue (e1.lt hv) (e1.notSec hv hns)) fun _ _ _ _ _ => at_obj (at_pure trivial)
  · exact at_raise

theorem at_updateVersion : AT updateVersion (fun _ _ => True) s := by
  unfold updateVersion
  refine at_inv fun w => at_lift fun a ha => ?_
  cases a with
  | none => exact at_pure trivial
  | some v =>
    obtain ⟨hv, hns⟩ := versionTerm_ok w ha
    refine at_lift fun a ha => at_lift fun b hb => at_lift fun c hc => at_ite (fun _ => at_obj (at_pure trivial)) fun _ => ?_
    have go : ∀ {t s'}, Evo s s' → t < s.next ∧ (s.heap t).cls.isSection = false → t < s'.next ∧ (s'.heap t).cls.isSection = false :=
      fun e h => ⟨e.lt h.1, e.notSec h.1 h.2⟩
    refine at_bind (at_versionPart hv (fun t e => by subst e; exact part_ok w ha)) fun _ s1 _ e1 _ => ?_
    refine at_bind (at_versionPart (e1.lt hv) (fun t e => by subst e; exact go e1 (part_ok w hb))) fun _ s2 _ e2 _ => ?_
    have e12 := e1.trans e2
    refine at_bind (at_versionPart (e12.lt hv) (fun t e => by subst e; exact go e12 (part_ok w hc))) fun _ s3 _ e3 _ => ?_
    have e13 := e12.trans e3
    exact at_versionString (e13.lt hv) (e13.notSec hv hns)

theorem at_identityName {mod : ModVer} : AT (identityName mod) (fun _ _ => True) s := by
  unfold identityName
  refine at_lift fun vals _ => at_bind at_updateVersion fun _ s1 _ _ _ => ?_
  refine at_lift fun sv _ => at_lift fun x hx => ?_
  dsimp only
  refine at_lift fun mv0 _ => at_lift fun mv _ => ?_
  have fin : ∀ (ver : Val) s2, AT (do
      let s ← M.get
      let parts ← M.lift fun _ => nameParts s.env.nfkd (vals ++ [ver])
      return join (py!"-") parts) (fun _ _ => True) s2 := fun ver s2 => at_get (at_lift fun _ _ => at_pure trivial)
  refine at_ite (fun _ => ?_) fun _ => ?_
  · exact fin _ _
  · refine at_inv fun w1 => at_lift fun t ht => ?_
    split
    · exact at_bind (Q := fun _ _ => False) at_raise fun _ _ _ _ h => h.elim
    · have hok : ∀ t', sectionFindFirst s1 x (if sv then py!"Version.Patch" else py!"Version") = .ok (some t') →
          t' < s1.next ∧ (s1.heap t').cls.isSection = false := by
        intro t' h
        cases sv with
        | true => exact patch_ok w1 h
        | false => exact listed_ok w1 (sectionFindFirst_rootLevel w1 (.inl (by decide)) h)
      obtain ⟨h1, h2⟩ := hok _ ht
      exact at_bind (at_setValue h1 h2) fun _ s2 _ _ _ => at_bind at_updateVersion fun ver s2 _ _ _ => fin ver s2

theorem at_updateName {force create report : Bool} {mod : ModVer} : AT (updateName force create report mod) (fun _ _ => True) s := by
  unfold updateName
  have hr : RootLevel (py!"Root.Name") := rootDot (r := py!"name") rfl
  refine at_bind at_ensureIdentifier fun _ s1 w1 e1 _ => ?_
  refine at_bind (Q := fun a s' => ∀ t, a = some t → t < s'.next ∧ (s'.heap t).cls.isSection = false) ?_ fun a s2 _ e2 ha => ?_
  · unfold nameTerm
    refine at_lift fun a ha => ?_
    split
    · next t => exact at_pure fun t e => by cases e; exact listed_ok w1 (findFirst_rootLevel w1 hr ha)
    · refine at_ite (fun _ => ?_) fun _ => at_pure fun t e => by cases e
      refine at_lift fun x hx => ?_
      exact at_bind (at_newTerm (inDoc_getSection hx) hr) fun t s2 w2 _ h => at_pure fun t e => by cases e; exact listed_ok w2 h
  · cases a with
    | none => exact at_pure trivial
    | some t =>
      obtain ⟨ht, hns⟩ := ha t rfl
      show AT (setName force report mod t) _ s2
      unfold setName
      refine at_obj (at_lift fun i _ => at_lift fun d _ => at_ite (fun _ => ?_) fun _ => ?_)
      · refine at_bind at_identityName fun n s3 _ e3 _ => at_ite (fun _ => ?_) fun _ => at_pure trivial
        exact at_bind (at_setValue (e3.lt ht) (e3.notSec ht hns)) fun _ _ _ _ _ => at_pure trivial
      · refine at_ite (fun _ => at_ite (fun _ => at_pure trivial) fun _ => ?_) fun _ => at_ite (fun _ => at_pure trivial) fun _ => at_pure trivial
        exact at_bind (at_setValue ht hns) fun _ _ _ _ _ => at_pure trivial

theorem at_tryMetatab {m h : M Unit} (hm : AT m (fun _ _ => True) s) (hh : ∀ s', AT h (fun _ _ => True) s') :
    ∀ w : Inv s, wp (tryMetatab m h) (fun _ s' => Inv s') (fun _ s' => Inv s') s := by
  intro w
  have h1 := hm w
  unfold wp at h1 ⊢
  unfold tryMetatab
  cases e : m s with
  | ok a s' => rw [e] at h1; exact h1.1
  | err x s' =>
    rw [e] at h1
    simp only
    split
    · next hr =>
      split at hr
      · have h2 := hh s' h1
        unfold wp at h2
        rw [hr] at h2
        exact h2.1
      · cases hr
    · next hr =>
      split at hr
      · have h2 := hh s' h1
        unfold wp at h2
        rw [hr] at h2
        exact h2
      · cases hr; exact h1

theorem at_cleanseName : AT cleanseName (fun _ _ => True) s := by
  unfold cleanseName
  have hr : RootLevel (py!"Root.Name") := rootDot (r := py!"name") rfl
  refine at_inv fun w => at_lift fun x hx => at_lift fun ident _ => at_lift fun name hn => ?_
  have set : ∀ {s1 n v}, n < s1.next ∧ (s1.heap n).cls.isSection = false → AT (upd n fun o => { o with value := v }) (fun _ _ => True) s1 :=
    fun h => at_mono (at_setValue h.1 h.2) fun _ _ _ _ _ => trivial
  cases name with
  | some n =>
    have hok := listed_ok w (sectionFindFirst_rootLevel w hr hn)
    refine at_obj (at_ite (fun _ => ?_) fun _ => ?_)
    · exact at_lift fun v _ => set hok
    · exact at_lift fun i _ => at_lift fun v _ => set hok
  | none =>
    refine at_lift fun i _ => at_lift fun v _ => ?_
    exact at_bind (at_getOrNewTerm (inDoc_getSection hx) hr) fun t s1 _ _ h => set h

theorem inv_cleanse (w : Inv s) : wp cleanse (fun _ s' => Inv s') (fun _ s' => Inv s') s := by
  unfold cleanse
  rw [wp_bind]
  refine wp_mono (at_ensureIdentifier w) (fun _ s1 h => ?_) fun _ _ h => h
  exact at_tryMetatab (at_bind at_updateName fun _ _ _ _ _ => at_mpure trivial) (fun _ => at_cleanseName) h.1

/-! ## Columns -/

theorem noSection_append {a b : List Str} (ha : NoSectionColumn a) (hb : NoSectionColumn b) : NoSectionColumn (a ++ b) := fun c hc =>
  (List.mem_append.1 hc).elim (ha c) (hb c)

theorem noSection_title {a : Str} (h : NoSectionColumn [a]) : NoSectionColumn [title a] := by
  intro b hb
  rw [List.mem_singleton.1 hb, ← strip_lower, lower_title, strip_lower]
  exact h a List.mem_cons_self

theorem at_addArg {x : Nat} {a : Str} {pre : Bool} (hx : x < s.next) (ha : NoSectionColumn [a]) : AT (addArg x a pre) (fun _ _ => True) s := by
  unfold addArg
  refine at_setArgs (g := fun l => addArgList l a pre) hx fun l hl => ?_
  unfold addArgList
  dsimp only
  split
  · split
    · exact noSection_append (noSection_title ha) (noSection_clean hl)
    · exact noSection_append (noSection_clean hl) (noSection_title ha)
  · exact noSection_clean hl

theorem foldl_erase_sub {α : Type} [BEq α] [LawfulBEq α] : ∀ (d l : List α), ∀ a ∈ d.foldl (fun acc e => acc.erase e) l, a ∈ l
  | [], _, _, h => h
  | e :: d, l, a, h => List.mem_of_mem_erase (foldl_erase_sub d (l.erase e) a h)

theorem at_removeArg {x : Nat} {a : Str} (hx : x < s.next) : AT (removeArg x a) (fun _ _ => True) s := by
  unfold removeArg
  refine at_setArgs (g := fun l => removeArgList l a) hx fun l hl b hb => ?_
  exact noSection_clean hl b (foldl_erase_sub _ _ b hb)

end Metatab
