import Verif.Lemmas.SameDoc
import Verif.Lemmas.Include
/-! Documents into which further files are read. -/
namespace Metatab
open Py Spec

/-- What is left of a reader between two files: a new parser knows neither the section nor the names of the file before. -/
def _root_.Spec.Reader.again (a : Reader) : Reader := { Reader.start with secs := a.secs, nodes := a.nodes }

/-- The document can be read into. -/
structure Resumable (s : St) (a : Reader) (ids : List Nat) : Prop where
  classes : PlainClasses s.classes
  sup : s.superTerms = []
  root : RootOk s
  inv : PInv True { s with p := initP s.root }
  sim : Sim { s with p := initP s.root } a.again ids

theorem ready_new {env : Env} {classes : Dict Cls} (hcl : PlainClasses classes) : Resumable (newDoc env classes) Reader.start [] :=
  ⟨hcl, rfl, rootOk_new env classes, pinv_new hcl, sim_start env classes⟩

theorem superTerms_plain {s : St} (h : s.superTerms = []) (hd : s.p.declTerms = initDeclTerms) : parserSuperTerms s = [] := by
  unfold parserSuperTerms
  rw [h, hd]
  simp only [ne_eq, not_true, if_false]
  decide

theorem termClass_plain {s : St} (h : s.superTerms = []) (hd : s.p.declTerms = initDeclTerms) (n : Str) :
    parserTermClass s n = (s.classes.get? (lower n)).getD .term := by
  unfold parserTermClass
  rw [superTerms_plain h hd]
  cases s.classes.get? (lower n) <;> rfl

/-- The end of a file leaves the document ready for the next one. -/
theorem ready_finish {s : St} {a : Reader} {ids : List Nat} (hcl : PlainClasses s.classes) (hsup : s.superTerms = [])
    (hps : s.p.declSecs = initDeclSecs) (hp : PInv True s) (h : Sim s a ids) (hroot : RootOk s) :
    Resumable (after finishLoad s) a ids := by
  obtain ⟨f, hf⟩ : ∃ f, f = after finishLoad s := ⟨_, rfl⟩
  have hfd : f.declTerms = initDeclTerms := by
    rw [hf]
    show s.declTerms.update s.p.declTerms = _
    rw [h.decl]
    rcases h.decl' with e | e <;> rw [e] <;> decide
  have hfs : f.declSecs = s.declSecs.update initDeclSecs := by rw [hf, ← hps]; rfl
  have hsecs : ∀ k d, f.declSecs.get? k = some d → d.args = [] := by
    intro k d hd
    rw [hfs, Dict.get?_update, Option.or_eq_some_iff] at hd
    rcases hd with e | ⟨-, e⟩
    · have e : Dict.get? [(py!"declaredsections", (⟨[], []⟩ : DSec)), (py!"declaredterms", ⟨[], []⟩), (py!"root", ⟨[], []⟩)] k = some d := e
      simp only [Dict.get?_cons, Dict.get?_nil] at e
      split at e
      · cases e; rfl
      split at e
      · cases e; rfl
      split at e
      · cases e; rfl
      · cases e
    · exact h.declSecs k d e
  have hfsup : f.superTerms = [] := by
    rw [hf]
    show s.superTerms.update (parserSuperTerms s) = _
    rw [superTerms_plain hsup h.decl, hsup]; rfl
  have hfh : f.heap = s.heap := by rw [hf]; rfl
  have hfr : f.root = s.root := by rw [hf]; rfl
  have hfse : f.sections = s.sections := by rw [hf]; rfl
  have hfc : f.classes = s.classes := by rw [hf]; rfl
  have hw : WF True ({ f with p := initP f.root } : St) := by
    have w : WF True f := by rw [hf]; exact { hp.wf with }
    exact { w with
      pSec := ⟨w.rootLt, w.rootSec⟩
      pMap := by
        intro kv hkv
        simp only [initP, List.mem_cons, List.not_mem_nil, or_false] at hkv
        rcases hkv with rfl | rfl <;> exact w.rootLt
      pLow := initP_low }
  have hcls : ∀ n, parserTermClass ({ f with p := initP f.root } : St) n = (s.classes.get? (lower n)).getD .term := by
    intro n; rw [termClass_plain (s := { f with p := initP f.root }) hfsup rfl]; show (f.classes.get? _).getD _ = _; rw [hfc]
  rw [← hf]
  refine ⟨by rw [hfc]; exact hcl, hfsup, by rw [hf]; exact { hroot with }, ?_, ?_⟩
  · refine ⟨hw, ⟨⟨initDecl_tvn, ?_⟩, ?_, ?_⟩, rfl, ?_, rfl, (show GoodName (py!"root") from ⟨by decide, by decide, by decide, by decide⟩), ?_, ?_, ?_, ?_⟩
    · intro n x
      show lower (declProp f.declTerms n _ (f.heap x).defTvn) ∉ _
      rw [hfd, hfh]
      have hx : lower (s.heap x).defTvn ∉ reservedTvn := by
        have := hp.std.tvn.doc [] x
        rcases h.decl' with e | e <;> rw [e] at this
        · exact this
        · unfold declProp at this
          rw [show initDeclTerms.get? [] = none by decide] at this
          exact this
      unfold declProp initDeclTerms
      simp only [Dict.get?_cons, Dict.get?_nil]
      split
      · next t h =>
        split at h
        · cases h; first | exact hx | exact (by decide : lower (py!"name") ∉ reservedTvn) | exact (by decide : lower (py!"term") ∉ reservedTvn) | exact (by decide : lower (py!"section") ∉ reservedTvn) | exact (by decide : lower (py!"value") ∉ reservedTvn)
        split at h
        · cases h; first | exact hx | exact (by decide : lower (py!"name") ∉ reservedTvn) | exact (by decide : lower (py!"term") ∉ reservedTvn) | exact (by decide : lower (py!"section") ∉ reservedTvn) | exact (by decide : lower (py!"value") ∉ reservedTvn)
        split at h
        · cases h; first | exact hx | exact (by decide : lower (py!"name") ∉ reservedTvn) | exact (by decide : lower (py!"term") ∉ reservedTvn) | exact (by decide : lower (py!"section") ∉ reservedTvn) | exact (by decide : lower (py!"value") ∉ reservedTvn)
        split at h
        · cases h; first | exact hx | exact (by decide : lower (py!"name") ∉ reservedTvn) | exact (by decide : lower (py!"term") ∉ reservedTvn) | exact (by decide : lower (py!"section") ∉ reservedTvn) | exact (by decide : lower (py!"value") ∉ reservedTvn)
        split at h
        · cases h; first | exact hx | exact (by decide : lower (py!"name") ∉ reservedTvn) | exact (by decide : lower (py!"term") ∉ reservedTvn) | exact (by decide : lower (py!"section") ∉ reservedTvn) | exact (by decide : lower (py!"value") ∉ reservedTvn)
        split at h
        · cases h; first | exact hx | exact (by decide : lower (py!"name") ∉ reservedTvn) | exact (by decide : lower (py!"term") ∉ reservedTvn) | exact (by decide : lower (py!"section") ∉ reservedTvn) | exact (by decide : lower (py!"value") ∉ reservedTvn)
        · cases h
      · exact hx
    · intro n hn
      rw [hcls] at hn
      cases hg : s.classes.get? (lower n) with
      | none => rw [hg] at hn; cases hn
      | some c => rw [hg] at hn; exact hcl.only _ _ hg hn
    · show synonyms initDeclTerms = []
      decide
    · show (f.heap f.root).rt = _
      rw [hfh, hfr]; exact hp.rootName
    · intro _ m hm; cases hm
    · rw [hcls, show lower (py!"root.section") = py!"root.section" by decide, hcl.sec]; rfl
    · intro k x hx hk
      show OkSec k (f.heap x)
      rw [hfh]
      exact hp.secs k x (by rw [← hfse]; exact hx) hk
    · intro k d hd
      rw [hsecs k d hd]
      intro c; cases c
  · have hh : Holds ({ f with p := initP f.root } : St) a.again ids := by
      have := holds_finish h.toHolds
      rw [← hf] at this
      exact { count := this.count, distinct := this.distinct, exist := this.exist, term := this.term, children := this.children,
              rootChildren := this.rootChildren, terms := this.terms, sections := this.sections, columns := this.columns,
              sectionTerms := this.sectionTerms }
    refine { toHolds := hh, names := ?_, cur := ?_, cols := rfl, vname := rfl, vnameOk := (by decide : (py!"@value") ≠ []), lastName := rfl, lastRef := rfl,
             known := ?_, secKnown := ?_, nodesOk := h.nodesOk, lastOk := trivial, knownOk := ?_, rootKnown := rfl, plainKnown := rfl,
             decl := rfl, decl' := .inr hfd, declSecs := hsecs }
    · intro k x hx
      show ∃ n, (f.heap x).value = _ ∧ _
      rw [hfh]; exact h.names k x (by rw [← hfse]; exact hx)
    · show f.sections.get? (py!"root") = some f.root
      rw [hfse, hfr]; exact hroot.key
    · intro k hk
      show Dict.get? [(py!"<elided_term>", f.root), (py!"root", f.root)] k = Option.map _ (Dict.get? [(py!"root", none)] k)
      simp only [Dict.get?_cons, Dict.get?_nil]
      have : py!"<elided_term>" ≠ k := Ne.symm hk
      rw [if_neg this]
      split <;> rfl
    · intro n hn
      show (f.sections.get? n.sec).isSome
      rw [hfse]; exact h.secKnown n hn
    · intro k i hk
      have hk : Dict.get? [(py!"root", none)] k = some i := hk
      rw [Dict.get?_cons] at hk
      split at hk
      · cases hk; trivial
      · cases hk

theorem Resumable.holds {s : St} {a : Reader} {ids : List Nat} (h : Resumable s a ids) : Holds s a ids :=
  { count := h.sim.count, distinct := h.sim.distinct, exist := h.sim.exist, term := h.sim.term, children := h.sim.children,
    rootChildren := h.sim.rootChildren, terms := h.sim.terms, sections := h.sim.sections, columns := h.sim.columns,
    sectionTerms := h.sim.sectionTerms }

/-- Reading one more file. -/
theorem Resumable.load {s : St} {a : Reader} {ids : List Nat} (h : Resumable s a ids) {files : Files} {n : Nat} {path : Str}
    {rows : List (List Str)} {b : Reader} (hr : Reads files.rows n (dirname path) path (py!"root") rows a.again b) {fuel : Nat} (hf : n ≤ fuel) :
    ∃ s' ids', parseRows files (fuel + 1) path rows s = .ok () s' ∧ Resumable s' b ids' := by
  obtain ⟨s', ids', ls', e, hp, hro, hs, -, hd⟩ := reads_run (F := True) hr hf h.inv { h.root with } h.sim h.root.key
  refine ⟨after finishLoad s', ids', ?_, ready_finish (by rw [hd.classes]; exact h.classes) (hd.sup.trans h.sup) hd.pSecs hp hs hro⟩
  unfold parseRows
  simp only [bind_run, modify_run, gen_succ]
  rw [e]; rfl

/-- One more file that cannot be read to its end. -/
theorem Resumable.stops {s : St} {a : Reader} {ids : List Nat} (h : Resumable s a ids) {files : Files} {fuel : Nat} {path : Str}
    {rows : List (List Str)} {w : Stop} (hr : Stops files.rows files.decl fuel (dirname path) path (py!"root") rows a.again w) :
    ∃ s', parseRows files (fuel + 1) path rows s = .err (stopErr w) s' := by
  obtain ⟨s', e⟩ := stops_run (F := True) hr h.inv { h.root with } h.sim h.root.key
  refine ⟨s', ?_⟩
  unfold parseRows
  simp only [bind_run, modify_run, gen_succ]
  rw [e]

end Metatab
