import Verif.Lemmas.Shown
import Verif.Lemmas.Norm
import Verif.Props.DeclTables
import Verif.Spec.Quiet
/-! Documents that begin with `Declare` rows. -/
namespace Metatab
open Py _root_.Spec

/-- The reader after the `Declare` rows. -/
def declReader (decls : List Str) : Reader := { Reader.start with nodes := flatL (py!"root") (py!"root") none 0 (declItems decls) }

theorem declItems_leaf {decls : List Str} : ∀ k ∈ declItems decls, k.leaf = true := by
  intro k hk
  obtain ⟨v, -, rfl⟩ := List.mem_map.1 hk
  rfl

theorem declReader_nodes (decls : List Str) :
    (declReader decls).nodes = decls.map fun v => ⟨py!"root", py!"declare", .str v, none, py!"root", py!"@value"⟩ := by
  show flatL _ _ _ _ _ = _
  rw [flatL_leaves declItems_leaf]
  unfold declItems
  rw [List.map_map]
  rfl

/-- What the tables are while the file is read. -/
structure Fresh (s : St) : Prop where
  terms : s.declTerms = []
  secs : s.declSecs = []
  sup : s.superTerms = []
  cls : s.classes = initClasses

theorem quiet_class {s : St} (f : Fresh s) {decls : List Str} (q : Quiet s decls) (n : Str) (h : (parserTermClass s n).isSection = true) :
    lower n = py!"root.section" ∨ lower n = py!"root.root" := by
  unfold parserTermClass at h
  rw [f.cls] at h
  cases hg : initClasses.get? (lower n) with
  | some c => rw [hg] at h; exact plainClasses_init.only _ _ hg h
  | none =>
    rw [hg] at h
    dsimp only at h
    cases hs : (parserSuperTerms s).get? (lower n) with
    | none => rw [hs] at h; cases h
    | some sup =>
      rw [hs] at h
      dsimp only at h
      exfalso
      unfold parserSuperTerms at hs
      rw [f.sup, if_neg (by simp)] at hs
      rw [Dict.get?_update, show Dict.get? ([] : Dict Str) (lower n) = none from rfl, Option.or_none] at hs
      have hm := List.mem_reverse.1 (Dict.mem_of_get? hs)
      obtain ⟨d, hd, he⟩ := List.mem_filterMap.1 hm
      cases hv : d.2.props.get? (py!"inheritsfrom") with
      | none => rw [hv] at he; cases he
      | some v =>
        rw [hv] at he
        obtain ⟨-, rfl⟩ := Prod.mk.inj (Option.some.inj he)
        have := q.parents d hd v hv
        cases hc : initClasses.get? (lower v) with
        | none => rw [hc] at h; cases h
        | some c =>
          rw [hc] at h
          rcases plainClasses_init.only _ _ hc h with e | e
          · exact this.1 e
          · exact this.2 e

theorem quiet_tvn {s : St} (w : WF True s) (f : Fresh s) {decls : List Str} (q : Quiet s decls) : TvnOk s := by
  refine ⟨fun n => ?_, fun n x => ?_⟩
  · unfold declProp
    split
    · next t ht =>
      cases hv : t.props.get? (py!"termvaluename") with
      | none => exact q.valueName
      | some v => exact q.valueNames _ (Dict.mem_of_get? ht) v hv
    · exact q.valueName
  · rw [f.terms]
    show lower (s.heap x).defTvn ∉ _
    by_cases hx : x < s.next
    · exact q.valueNameOf x hx
    · rw [w.blank x (Nat.le_of_not_lt hx)]; decide

theorem quiet_part {s : St} {decls : List Str} (q : Quiet s decls) : ShowsPart s (py!"root", s.root) ⟨py!"Root", [], declItems decls⟩ := by
  have := q.outline.parts
  rw [q.only] at this
  cases this with
  | cons h _ => exact h

theorem quiet_args {s : St} {decls : List Str} (q : Quiet s decls) : (s.heap s.root).headerArgs = [] ∧ (s.heap s.root).args = [] := by
  have h := (quiet_part q).cols
  unfold Obj.secPropertyNames at h
  dsimp only at h
  by_cases hh : (s.heap s.root).headerArgs = []
  · rw [if_neg (by simp [hh])] at h; exact ⟨hh, h⟩
  · rw [if_pos hh] at h; exact absurd h hh

theorem quiet_inv {s : St} (w : WF True s) (f : Fresh s) {decls : List Str} (q : Quiet s decls) : PInvG False True s := by
  obtain ⟨t, ht⟩ := Option.isSome_iff_exists.1 q.last
  refine ⟨w, ⟨quiet_tvn w f q, quiet_class f q, q.synonyms⟩, q.rootKey, q.outline.rootName, ?_, ?_, False.elim, ?_, ?_, ?_⟩
  · unfold lastTerm; rw [ht]; rfl
  · obtain ⟨h1, h2, h3, h4⟩ := q.lastName
    exact ⟨h1, h2, h3, h4⟩
  · unfold parserTermClass
    rw [f.cls]; rfl
  · intro k x hx hk
    rw [q.only, Dict.get?_cons] at hx
    split at hx
    · next e => exact absurd e.symm hk
    · cases hx
  · intro k d hd
    rw [f.secs] at hd; cases hd

theorem quiet_items {s : St} {decls : List Str} (q : Quiet s decls) :
    List.Forall₂ (fun v t => (s.heap t).rt = py!"declare" ∧ (s.heap t).value = .str v ∧ (s.heap t).sec = some s.root ∧ (s.heap t).children = []) decls
      (s.heap s.root).terms := by
  have h := showsItems_forall.1 (quiet_part q).items
  dsimp only [declItems] at h
  rw [List.forall₂_map_left_iff] at h
  refine h.imp fun v t ht => ?_
  rw [showsItem_mk] at ht
  obtain ⟨h1, h2, h3, -, h5⟩ := ht
  rw [ShowsItems] at h5
  exact ⟨h1, h2, h3, h5⟩

theorem get?_root {s : St} {decls : List Str} (q : Quiet s decls) {k : Str} {x : Nat} (h : s.sections.get? k = some x) : k = py!"root" ∧ x = s.root := by
  rw [q.only, Dict.get?_cons] at h
  split at h
  · next e => cases h; exact ⟨e.symm, rfl⟩
  · cases h

theorem quiet_track {s : St} (w : WF True s) (f : Fresh s) {decls : List Str} (q : Quiet s decls) :
    Track False s (declReader decls) (s.heap s.root).terms := by
  have hi := List.forall₂_iff_zip.1 (quiet_items q)
  have hroot : s.sections.get? (py!"root") = some s.root := by rw [q.only]; rfl
  have hnode : ∀ n ∈ (declReader decls).nodes, n.pt = py!"root" ∧ n.parent = none ∧ n.sec = py!"root" := by
    intro n hn
    rw [declReader_nodes] at hn
    obtain ⟨v, -, rfl⟩ := List.mem_map.1 hn
    exact ⟨rfl, rfl, rfl⟩
  refine { count := ?_, distinct := w.secTermsNodup _, exist := fun t ht => ⟨w.secTermsLt _ t ht, (q.below t ht).2⟩, term := ?_, children := ?_,
           sections := by rw [q.only]; rfl, columns := ?_, noHeader := ?_, sectionTerms := ?_, names := ?_, cur := ?_, cols := False.elim,
           lastName := False.elim, lastRef := False.elim, known := ?_, secKnown := ?_, nodesOk := ?_, lastOk := trivial, knownOk := ?_,
           declSecs := f.secs }
  · rw [declReader_nodes, List.length_map, hi.1]
  · intro n t hm
    rw [declReader_nodes, List.zip_map_left] at hm
    obtain ⟨⟨v, t'⟩, hz, e⟩ := List.mem_map.1 hm
    cases e
    obtain ⟨h1, h2, h3, h4⟩ := hi.2 hz
    have ht := (List.of_mem_zip hz).2
    refine ⟨((quiet_part q).rootLevel _ ht).1, h1, h2, (q.below _ ht).1, ?_⟩
    exact h3.trans hroot.symm
  · intro i hil
    rw [pick_none]
    · rw [ref_some hil]
      have : i < decls.length := by rw [hi.1]; exact hil
      have hz : (decls[i], (s.heap s.root).terms[i]) ∈ decls.zip (s.heap s.root).terms := by
        rw [← List.getElem_zip (h := by rw [List.length_zip]; omega)]
        exact List.getElem_mem _
      exact (hi.2 hz).2.2.2
    · intro n hn
      rw [(hnode n hn).2.1]; rfl
  · intro k x hx
    obtain ⟨rfl, rfl⟩ := get?_root q hx
    exact ⟨_, (quiet_part q).name, by rw [(quiet_args q).2]; rfl⟩
  · intro k x hx
    obtain ⟨rfl, rfl⟩ := get?_root q hx
    exact (quiet_args q).1
  · intro k x hx
    obtain ⟨rfl, rfl⟩ := get?_root q hx
    unfold pick
    rw [List.filter_eq_self.2, List.map_snd_zip]
    · rw [declReader_nodes, List.length_map, hi.1]; exact Nat.le_refl _
    · intro nt hnt
      obtain ⟨h1, -, h3⟩ := hnode nt.1 (List.of_mem_zip (show (nt.1, nt.2) ∈ _ from hnt)).1
      dsimp only
      rw [h1, h3]; rfl
  · intro k x hx
    obtain ⟨rfl, rfl⟩ := get?_root q hx
    exact ⟨_, (quiet_part q).name, rfl⟩
  · rw [q.current]; exact hroot
  · intro k i _ hk
    have hk : Dict.get? [(py!"root", (none : Option Nat))] k = some i := hk
    rw [Dict.get?_cons] at hk
    split at hk
    · next e => cases hk; rw [← e]; exact q.rootKey
    · cases hk
  · intro n hn
    rw [(hnode n hn).2.2, hroot]; rfl
  · intro n hn
    rw [(hnode n hn).2.1]; trivial
  · intro k i hk
    have hk : Dict.get? [(py!"root", (none : Option Nat))] k = some i := hk
    rw [Dict.get?_cons] at hk
    split at hk
    · cases hk; trivial
    · cases hk

/-! ## The rows of the root section -/

theorem itemRows_short {p : Str} : ∀ (i : Item), ∀ row ∈ itemRows [] p i, (row.drop 2).isEmpty = true := by
  have key : ∀ (m : Nat) (i : Item), sizeOf i ≤ m → ∀ p, ∀ row ∈ itemRows [] p i, (row.drop 2).isEmpty = true := by
    intro m
    induction m with
    | zero => intro i hi; cases i; simp at hi
    | succ m ih =>
      intro i hi p row hr
      obtain ⟨n, v, ks⟩ := i
      rw [itemRows] at hr
      rcases List.mem_cons.1 hr with rfl | hr
      · rfl
      · rcases List.mem_append.1 hr with hr | hr
        · obtain ⟨k, -, rfl⟩ := List.mem_map.1 hr
          rfl
        · have : ∀ (l : List Item), sizeOf l ≤ m → row ∈ itemRowsL [] n l → (row.drop 2).isEmpty = true := by
            intro l
            induction l with
            | nil => intro _ h; cases h
            | cons k l il =>
              intro hl h
              rw [itemRowsL] at h
              simp only [List.cons.sizeOf_spec] at hl
              rcases List.mem_append.1 h with h | h
              · split at h
                · cases h
                · exact ih k (by omega) n row h
              · exact il (by omega) h
          refine this ks ?_ hr
          simp only [Item.mk.sizeOf_spec] at hi
          omega
  exact fun i => key _ i (Nat.le_refl _) p

theorem headOk_append {a b : List (List Str)} (h1 : ∀ row ∈ a, kind row ≠ .special ∧ ∀ n c, kind row ≠ .header n c)
    (h2 : ∀ row ∈ a, ∀ x, kind row ≠ .elided x) (h3 : ∀ row ∈ a, (row.drop 2).isEmpty = true) (hb : headOk b = true) : headOk (a ++ b) = true := by
  induction a with
  | nil => exact hb
  | cons row a ih =>
    have ih' := ih (fun r hr => h1 r (List.mem_cons_of_mem _ hr)) (fun r hr => h2 r (List.mem_cons_of_mem _ hr)) fun r hr => h3 r (List.mem_cons_of_mem _ hr)
    rw [List.cons_append, headOk]
    cases hk : kind row with
    | noise => exact ih'
    | special => exact absurd hk (h1 row List.mem_cons_self).1
    | header n c => exact absurd hk ((h1 row List.mem_cons_self).2 n c)
    | elided x => exact absurd hk (h2 row List.mem_cons_self x)
    | «section» n c => rfl
    | named p r => dsimp only; rw [ih', List.isEmpty_iff.1 (h3 row List.mem_cons_self)]; rfl

theorem headOk_parts {ds : List Part} (h : ∀ d ∈ ds, PartOk d) : headOk (ds.flatMap partRows) = true := by
  cases ds with
  | nil => rfl
  | cons d ds =>
    have hd := h d List.mem_cons_self
    have hn : kind [[]] = .noise := by decide +kernel
    rw [List.flatMap_cons]
    unfold partRows
    rw [if_pos (name_ne_root hd), List.append_assoc, List.cons_append, headOk, hn]
    dsimp only
    rw [List.cons_append, headOk, kind_sectionRow hd]

theorem partRows_root {is : List Item} : partRows ⟨py!"Root", [], is⟩ = is.flatMap (itemRows [] (py!"root")) := by
  unfold partRows; rw [if_neg (by simp), List.nil_append]

theorem itemRows_decl (decls : List Str) : (declItems decls).flatMap (itemRows [] (py!"root")) = declRows decls := by
  unfold declItems declRows
  induction decls with
  | nil => rfl
  | cons v vs ih =>
    rw [List.map_cons, List.flatMap_cons, ih]
    have : itemRows [] (py!"root") (.mk (py!"declare") (some v) []) = [[py!"Declare", v]] := by
      rw [itemRows]
      rw [show rowName (dotJoin (py!"root") (py!"declare")) = py!"Declare" by decide +kernel]
      rfl
    rw [this]; rfl

/-- The reference reader on what follows the `Declare` rows. -/
theorem read_declared {decls : List Str} {is : List Item} {ds : List Part} (h : writable (⟨py!"Root", [], is⟩ :: ds) = true) :
    (((⟨py!"Root", [], is⟩ :: ds : List Part).flatMap partRows).foldl Reader.row (declReader decls)).nodes =
      flatD 0 (⟨py!"Root", [], declItems decls ++ is.map (Item.norm [])⟩ :: ds.map Part.norm) ∧
    (((⟨py!"Root", [], is⟩ :: ds : List Part).flatMap partRows).foldl Reader.row (declReader decls)).secs =
      (⟨py!"Root", [], declItems decls ++ is.map (Item.norm [])⟩ :: ds.map Part.norm : List Part).map fun d => (lower d.name, d.name, d.cols) := by
  obtain ⟨r, ds, e, w⟩ := writable_iff.1 h
  cases e
  rw [List.flatMap_cons, List.foldl_append]
  have hlr : lower (py!"Root") = py!"root" := by decide +kernel
  obtain ⟨names, r1, hn⟩ := read_rootItems (cols := []) (sec := py!"root") is (a := declReader decls) w.items rfl rfl rfl rfl
  rw [← partRows_root] at r1
  have r2 := read_parts ds (a := (partRows ⟨py!"Root", [], is⟩).foldl Reader.row (declReader decls)) w.parts w.nodup (by
    intro d hd
    rw [r1.secs]
    simp only [declReader, Reader.start]
    rw [Dict.get?_cons, if_neg (fun e => (w.parts d hd).notRoot e.symm)]
    rfl) (by rw [r1.known _ hn]; rfl)
  constructor
  · rw [r2.nodes, r1.nodes, flatD]
    simp only [hlr]
    rw [flatL_append, Nat.zero_add, Nat.zero_add]
    simp only [List.length_append]
    rfl
  · rw [r2.secs, r1.secs, List.map_cons, List.map_map]
    rfl

/-! ## The document -/

theorem pres_included (files : Files) (load : Bool) (f : Nat) (a : Str) (b : Bool) : Pres DocTab (included files load f a b) := by
  unfold included
  split
  · exact Pres.raise _
  · exact tabR_gen doc_manageDeclare _ _ _ _ _ _ _

/-- Reading the `Declare` rows, up to the end of the parser. -/
theorem declared_start {env : Env} {files : Files} {fuel : Nat} {path : Str} {rows : List (List Str)} {s1 : St}
    (h : parseRows files (fuel + 1) path rows (newDoc env) = .ok () s1) :
    ∃ ls s0, genRows files (included files true fuel) true false (dirname path) path (newDoc env).root rows (newDoc env) = .ok ls s0 ∧
      s1 = after finishLoad s0 ∧ Fresh s0 := by
  unfold parseRows at h
  have e0 : ({ newDoc env with p := initP (newDoc env).root } : St) = newDoc env := rfl
  simp only [bind_run, modify_run, e0, gen_succ] at h
  have ht := tabR_genRows (R := DocTab) doc_manageDeclare (files := files) (sub := included files true fuel) (pres_included _ _ _) true false
    (dirname path) path (newDoc env).root rows (newDoc env)
  cases hg : genRows files (included files true fuel) true false (dirname path) path (newDoc env).root rows (newDoc env) with
  | err e s0 => rw [hg] at h; cases h
  | ok ls s0 =>
    rw [hg] at h ht
    refine ⟨ls, s0, rfl, ?_, ht.terms, ht.secs, ht.sup, ht.cls⟩
    cases h; rfl

theorem quiet_before {s : St} {decls : List Str} (q : Quiet (after finishLoad s) decls) : Quiet s decls := by
  have p := quiet_items q
  refine ⟨⟨q.outline.rootName, ?_⟩, q.only, q.below, q.current, q.rootKey, q.last, q.lastName, q.synonyms, q.valueNames, q.valueName, q.valueNameOf,
    q.parents⟩
  have h := quiet_part q
  have ho : s.sections = [(py!"root", s.root)] := q.only
  rw [ho]
  refine .cons ⟨h.key, h.name, h.cols, ?_, h.rootLevel⟩ .nil
  rw [showsItems_forall]
  show List.Forall₂ _ (declItems decls) (s.heap s.root).terms
  unfold declItems
  rw [List.forall₂_map_left_iff]
  refine p.imp fun v t ht => ?_
  have h1 : (s.heap t).rt = py!"declare" := ht.1
  have h4 : (s.heap t).children = [] := ht.2.2.2
  rw [showsItem_mk]
  refine ⟨h1, ht.2.1, ht.2.2.1, ?_, ?_⟩
  · rw [h4]; intro c hc; cases hc
  · rw [h4, ShowsItems]

theorem wf_before {s : St} (w : WF True (after finishLoad s)) : WF True s :=
  ⟨w.rootLt, w.rootSec, w.blank, w.termsLt, w.termsNodup, w.secsLt, w.secsNodup, w.secTermsLt, w.secTermsNodup, w.kidLt, w.parLt, w.secLt, w.pSec, w.pMap,
    w.low, w.pLow, w.edge, w.kidSec, w.kidPar, w.kidNodup⟩

theorem Tracks.finish {s : St} {a : Reader} {ids : List Nat} (h : Tracks s a ids) : Tracks (after finishLoad s) a ids :=
  ⟨h.count, h.distinct, h.exist, h.term, h.children, h.sections, h.columns, h.noHeader, h.sectionTerms⟩

/-- What the rows that follow leave of a quiet document. -/
structure After (s1 s' : St) : Prop where
  root : s'.root = s1.root
  okSecs : ∀ k x, s'.sections.get? k = some x → k ≠ ROOT → OkSec k (s'.heap x)
  kept : ∀ k x, s1.sections.get? k = some x → s'.sections.get? k = some x
  classes : s'.classes = s1.classes
  sup : s'.superTerms = s1.superTerms
  secs : s'.declSecs = s1.declSecs
  tvn : NoSecTvn s1 → ∀ x, x < s'.next → (s'.heap x).rt ≠ py!"declaresection" → lower (s'.heap x).tvn ≠ py!"section"
  fresh : ∀ k x, s'.sections.get? k = some x → s1.sections.get? k = some x ∨ s1.next ≤ x

/-- Reading rows that leave a quiet document, such as `Declare` rows, and then ordinary rows. -/
theorem declared_tracks {env : Env} {files : Files} {fuel : Nat} {path : Str} {decls : List Str} {before : List (List Str)}
    {s1 : St} (h : parseRows files (fuel + 1) path before (newDoc env) = .ok () s1) (q : Quiet s1 decls) {R : List (List Str)}
    (hpl : plainFile R = true) (hnh : ∀ row ∈ R, kind row ≠ .special ∧ ∀ n c, kind row ≠ .header n c) (hhead : headOk R = true) :
    ∃ s' ids, parseRows files (fuel + 1) path (before ++ R) (newDoc env) = .ok () s' ∧
      Tracks s' (R.foldl Reader.row (declReader decls)) ids ∧ (s'.heap s'.root).rt = py!"root" ∧
      (∀ k x, s'.sections.get? k = some x → ∃ n, (s'.heap x).value = .str n ∧ lower n = k) ∧ s'.declTerms = s1.declTerms ∧
      s'.derived = s1.derived ∧ s'.env = s1.env ∧ (∀ T, Listed T s1 → Listed T s') ∧
      (∀ i, i < s1.next → KeptObj (s1.heap i) (s'.heap i)) ∧ Reach Op.noAddChild s' ∧ After s1 s' := by
  have w1 : WF True s1 := by
    have hr : Reach Op.noAddChild (after (parseRows files (fuel + 1) path before) (newDoc env)) :=
      Reach.step (.parse files (fuel + 1) path before) (.new env _) trivial trivial
    unfold after at hr
    rw [h] at hr
    exact hr.wf fun _ op ha => ha
  obtain ⟨ls, s0, hg, rfl, f⟩ := declared_start h
  have w0 := wf_before w1
  have q0 := quiet_before q
  obtain ⟨G, s2, ids, hdo, hp, ht, hsd⟩ := track_rows (F := True) False s0 (declReader decls) _ [py!"root"] (quiet_inv w0 f q0) (quiet_track w0 f q0)
    (by intro k hk; obtain rfl := List.mem_singleton.1 hk; rfl) hpl hnh (.inr hhead)
  obtain ⟨ls', e⟩ := hdo files (included files true fuel) (dirname path) path ls
  have e := e []
  rw [List.append_nil] at e
  have run : parseRows files (fuel + 1) path (before ++ R) (newDoc env) = .ok () (after finishLoad s2) := by
    unfold parseRows
    have e0 : ({ newDoc env with p := initP (newDoc env).root } : St) = newDoc env := rfl
    simp only [bind_run, modify_run, e0, gen_succ]
    rw [genRows_append]
    simp only [bind_run, hg, e, genRows, pure_run]
    rfl
  refine ⟨after finishLoad s2, ids, run, ht.toTracks.finish, hp.rootName, ht.names, ?_, ?_, hsd.env, fun T l => hsd.listed T l, fun i hi => hsd.old i hi, ?_,
    ⟨hsd.root, hp.secs, fun k x hx => hsd.kept k x hx, hsd.classes, ?_, ?_, ?_, fun k x hx => hsd.fresh k x hx⟩⟩
  · show Dict.update s2.declTerms s2.p.declTerms = Dict.update s0.declTerms s0.p.declTerms
    rw [hsd.doc, hsd.parser]
  · show derivedOf (Dict.update s2.superTerms (parserSuperTerms s2)) = derivedOf (Dict.update s0.superTerms (parserSuperTerms s0))
    unfold parserSuperTerms
    rw [hsd.sup, hsd.parser]
  · have hr : Reach Op.noAddChild (after (parseRows files (fuel + 1) path (before ++ R)) (newDoc env)) :=
      Reach.step (.parse files (fuel + 1) path _) (.new env _) trivial trivial
    unfold after at hr
    rw [run] at hr
    exact hr
  · show Dict.update s2.superTerms (parserSuperTerms s2) = Dict.update s0.superTerms (parserSuperTerms s0)
    unfold parserSuperTerms
    rw [hsd.sup, hsd.parser]
  · show Dict.update s2.declSecs s2.p.declSecs = Dict.update s0.declSecs s0.p.declSecs
    rw [hsd.secs, hsd.pSecs]
  · intro g
    have g0 : NoSecTvn s0 := ⟨g.parser, by rw [f.terms]; intro kv hkv; (cases hkv), g.current, g.default, g.objects⟩
    exact (hsd.tvn g0).objects

/-- Reading rows that leave a quiet document, such as `Declare` rows, and then other rows that the reference reader takes as the rows of an outline. -/
theorem declared_parse_full {env : Env} {files : Files} {fuel : Nat} {path : Str} {decls : List Str} {before : List (List Str)}
    {s1 : St} (h : parseRows files (fuel + 1) path before (newDoc env) = .ok () s1) (q : Quiet s1 decls) {is : List Item} {ds : List Part}
    (hw : writable (⟨py!"Root", [], is⟩ :: ds) = true) {R : List (List Str)} (hpl : plainFile R = true)
    (hnh : ∀ row ∈ R, kind row ≠ .special ∧ ∀ n c, kind row ≠ .header n c) (hhead : headOk R = true)
    (hR : R.foldl Reader.row (declReader decls) = ((⟨py!"Root", [], is⟩ :: ds : List Part).flatMap partRows).foldl Reader.row (declReader decls)) :
    ∃ s', parseRows files (fuel + 1) path (before ++ R) (newDoc env) = .ok () s' ∧
      Shows s' (⟨py!"Root", [], declItems decls ++ is.map (Item.norm [])⟩ :: ds.map Part.norm) ∧ s'.declTerms = s1.declTerms ∧
      s'.derived = s1.derived ∧ s'.env = s1.env ∧ (∀ T, Listed T s1 → Listed T s') ∧
      (∀ i, i < s1.next → KeptObj (s1.heap i) (s'.heap i)) ∧ Reach Op.noAddChild s' := by
  obtain ⟨s', ids, run, ht, hroot, -, e1, e2, e3, e4, e5, e6, -⟩ := declared_tracks h q hpl hnh hhead
  refine ⟨s', run, ?_, e1, e2, e3, e4, e5, e6⟩
  obtain ⟨hn, hs⟩ := read_declared (decls := decls) hw
  rw [← hR] at hn hs
  refine tracks_shows ht hroot ?_ ?_ hn hs
  · intro d hd
    rcases List.mem_cons.1 hd with rfl | hd
    · have hwn := writable_part (writable_norm hw) _ List.mem_cons_self
      have lv := level_ok hwn.2
      intro b n hn
      dsimp only at hn
      rw [flatL_append] at hn
      rcases List.mem_append.1 hn with hn | hn
      · rw [flatL_leaves declItems_leaf] at hn
        obtain ⟨k, -, rfl⟩ := List.mem_map.1 hn
        simp
      · exact lv _ n hn
    · exact level_ok (writable_part (writable_norm hw) d (List.mem_cons_of_mem _ hd)).2
  · have := writable_nodup (writable_norm hw)
    exact this

/-- Reading rows that leave a quiet document, such as `Declare` rows, and then other rows that the reference reader takes as the rows of an outline. -/
theorem declared_parse_as {env : Env} {files : Files} {fuel : Nat} {path : Str} {decls : List Str} {before : List (List Str)}
    {s1 : St} (h : parseRows files (fuel + 1) path before (newDoc env) = .ok () s1) (q : Quiet s1 decls) {is : List Item} {ds : List Part}
    (hw : writable (⟨py!"Root", [], is⟩ :: ds) = true) {R : List (List Str)} (hpl : plainFile R = true)
    (hnh : ∀ row ∈ R, kind row ≠ .special ∧ ∀ n c, kind row ≠ .header n c) (hhead : headOk R = true)
    (hR : R.foldl Reader.row (declReader decls) = ((⟨py!"Root", [], is⟩ :: ds : List Part).flatMap partRows).foldl Reader.row (declReader decls)) :
    ∃ s', parseRows files (fuel + 1) path (before ++ R) (newDoc env) = .ok () s' ∧
      Shows s' (⟨py!"Root", [], declItems decls ++ is.map (Item.norm [])⟩ :: ds.map Part.norm) ∧ s'.declTerms = s1.declTerms := by
  obtain ⟨s', h1, h2, h3, -⟩ := declared_parse_full h q hw hpl hnh hhead hR
  exact ⟨s', h1, h2, h3⟩

theorem headOk_root {is : List Item} (h : is.all (Item.ok [] (py!"root")) = true) {R : List (List Str)} (hR : headOk R = true) :
    headOk (is.flatMap (itemRows [] (py!"root")) ++ R) = true := by
  have hs := plain_rootItems is h
  refine headOk_append hs.noHeader hs.noElided ?_ hR
  intro row hr
  obtain ⟨i, -, hi⟩ := List.mem_flatMap.1 hr
  exact itemRows_short i row hi

/-- Reading `Declare` rows and then the rows of an outline. -/
theorem declared_parse {env : Env} {files : Files} {fuel : Nat} {path : Str} {decls : List Str} {s1 : St}
    (h : parseRows files (fuel + 1) path (declRows decls) (newDoc env) = .ok () s1) (q : Quiet s1 decls) {is : List Item} {ds : List Part}
    (hw : writable (⟨py!"Root", [], is⟩ :: ds) = true) :
    ∃ s', parseRows files (fuel + 1) path (declRows decls ++ (⟨py!"Root", [], is⟩ :: ds : List Part).flatMap partRows) (newDoc env) = .ok () s' ∧
      Shows s' (⟨py!"Root", [], declItems decls ++ is.map (Item.norm [])⟩ :: ds.map Part.norm) ∧ s'.declTerms = s1.declTerms := by
  have W := hw
  obtain ⟨r, ds, e, w⟩ := writable_iff.1 W
  cases e
  refine declared_parse_as h q hw (writable_plain hw) (writable_seg hw).noHeader ?_ rfl
  rw [List.flatMap_cons, partRows_root]
  exact headOk_root w.items (headOk_parts w.parts)

end Metatab
