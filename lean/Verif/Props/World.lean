import Verif.Model.World
import Verif.Lemmas.OpTables
import Verif.Lemmas.Examples
import Verif.Props.Agree
/-! # C83: Documents do not affect each other, except through the registered classes -/
namespace Metatab
open Py _root_.Spec

/-- The calls that change the registry. -/
def _root_.Spec.Registers : Op → Prop
  | .registerClass .. | .unregisterClass _ => True
  | _ => False

/-- What the calls make of a document that is alone. -/
def _root_.Spec.alone (s : St) (ops : List Op) : St := ops.foldl (fun s op => after op.run s) s

/-- The processes that clients can bring about by opening documents and by the calls admitted by `ok` on their documents. -/
inductive _root_.Spec.Process (ok : St → Op → Prop) : Proc → Prop
  | start : Process ok Proc.start
  | opened {w : Proc} (env : Env) (h : Process ok w) : Process ok (w.opened env)
  | call {w : Proc} {s : St} (i : Nat) (op : Op) (h : Process ok w) (hd : w.doc i = some s) (hv : op.valid s) (ho : ok s op) :
      Process ok (w.call i op)

theorem call_classes {op : Op} (h : ¬ Registers op) (s : St) : (after op.run s).classes = s.classes := by
  rw [after_eq]
  have := tab_op op
  cases op <;> first
    | exact absurd trivial h
    | exact cls_parse _ _ _ _ s
    | exact cls_loadDeclarations _ _ _ s
    | exact (this s).doc.cls

theorem doc_classes {w : Proc} {i : Nat} {s : St} (h : w.doc i = some s) : s.classes = w.classes := by
  unfold Proc.doc at h
  cases e : w.docs[i]? <;> rw [e] at h <;> simp at h
  rw [← h]

theorem register_eq {op : Op} (h : Registers op) : ∃ f : Dict Cls → Dict Cls, ∀ s, after op.run s = { s with classes := f s.classes } := by
  cases op <;> first
    | exact h.elim
    | exact ⟨fun c => c.set _ _, fun s => rfl⟩
    | exact ⟨fun c => c.del _, fun s => rfl⟩

theorem call_doc_self {w : Proc} {i : Nat} {s : St} {op : Op} (h : w.doc i = some s) : (w.call i op).doc i = some (after op.run s) := by
  have hi : i < w.docs.length := by
    unfold Proc.doc at h
    cases e : w.docs[i]? <;> rw [e] at h
    · cases h
    · exact (List.getElem?_eq_some_iff.1 e).1
  unfold Proc.call
  rw [h]
  unfold Proc.doc
  simp [hi]

theorem call_doc_other {w : Proc} {i j : Nat} {s : St} {op : Op} (hd : w.doc i = some s) (h : i ≠ j) :
    (w.call i op).doc j = (w.doc j).map fun x => { x with classes := (after op.run s).classes } := by
  unfold Proc.call
  rw [hd]
  unfold Proc.doc
  simp [List.getElem?_set_ne h, Function.comp_def]

/-- **C83, a call on one document leaves the others alone.** Unless it registers or unregisters a class, a call on one document, whether
it returns or raises, leaves every other document of the process exactly as it was. -/
theorem C83_frame (w : Proc) {i j : Nat} {op : Op} (h : ¬ Registers op) (hij : i ≠ j) : (w.call i op).doc j = w.doc j := by
  cases hd : w.doc i with
  | none => unfold Proc.call; rw [hd]
  | some s =>
    rw [call_doc_other hd hij, call_classes h, doc_classes hd]
    unfold Proc.doc
    simp [Function.comp_def]

/-- **C83, opening a document leaves the others alone.** -/
theorem C83_opened (w : Proc) (env : Env) {i : Nat} {s : St} (h : w.doc i = some s) : (w.opened env).doc i = some s := by
  unfold Proc.doc at h ⊢
  cases e : w.docs[i]? with
  | none => rw [e] at h; cases h
  | some x =>
    rw [e] at h
    have hi : i < w.docs.length := (List.getElem?_eq_some_iff.1 e).1
    unfold Proc.opened
    dsimp only
    rw [List.getElem?_append_left hi, e]
    exact h

/-- **C83, registering reaches all documents.** Registering or unregistering a class through one document does to every document of the
process what it does to that one. -/
theorem C83_register {w : Proc} {i : Nat} {s : St} {op : Op} (hd : w.doc i = some s) (h : Registers op) (j : Nat) :
    (w.call i op).doc j = (w.doc j).map (after op.run) := by
  obtain ⟨f, hf⟩ := register_eq h
  rcases Decidable.em (i = j) with rfl | hij
  · rw [call_doc_self hd, hd]; rfl
  · rw [call_doc_other hd hij, hf]
    cases e : w.doc j with
    | none => rfl
    | some x =>
      dsimp only [Option.map]
      rw [hf, doc_classes hd, doc_classes e]

/-- **C83, calls on several documents can be taken apart.** However the calls on the documents of a process are interleaved, as long as
none of them registers a class, every document ends as if its own calls had been made on it alone. -/
theorem C83_project (calls : List (Nat × Op)) (h : ∀ c ∈ calls, ¬ Registers c.2) (w : Proc) (i : Nat) :
    (w.run calls).doc i = (w.doc i).map fun s => alone s ((calls.filter fun c => c.1 = i).map (·.2)) := by
  induction calls generalizing w with
  | nil => simp [Proc.run, alone]
  | cons c cs ih =>
    have ih' := ih (fun d hd => h d (List.mem_cons_of_mem _ hd)) (w.call c.1 c.2)
    have step : w.run (c :: cs) = (w.call c.1 c.2).run cs := rfl
    rw [step, ih']
    rcases Decidable.em (c.1 = i) with e | e
    · subst e
      rw [List.filter_cons_of_pos (by simp)]
      cases hd : w.doc c.1 with
      | none =>
        have : w.call c.1 c.2 = w := by unfold Proc.call; rw [hd]
        rw [this, hd]; rfl
      | some s => rw [call_doc_self hd]; rfl
    · rw [List.filter_cons_of_neg (by simpa using e), C83_frame w (h c List.mem_cons_self) e]

/-- Every document of a process has the property `P` if `P` holds of new documents and is kept by the admitted calls. -/
theorem process_doc {ok : St → Op → Prop} {P : St → Prop} (hnew : ∀ env classes, P (newDoc env classes))
    (hstep : ∀ s op, P s → op.valid s → ok s op → P (after op.run s))
    (hreg : ∀ s s' op, ok s op → Registers op → ok s' op) {w : Proc} (h : Process ok w) : ∀ {i s}, w.doc i = some s → P s := by
  induction h with
  | start => intro i s hs; simp [Proc.doc, Proc.start] at hs
  | @opened w env h ih =>
    intro i s hs
    rcases Nat.lt_or_ge i w.docs.length with hi | hi
    · refine ih (i := i) (s := s) ?_
      unfold Proc.doc Proc.opened at *
      dsimp only at hs
      rwa [List.getElem?_append_left hi] at hs
    · unfold Proc.doc Proc.opened at hs
      dsimp only at hs
      rw [List.getElem?_append_right hi] at hs
      cases e : i - w.docs.length with
      | zero => rw [e] at hs; cases hs; exact hnew env w.classes
      | succ n => rw [e] at hs; cases hs
  | @call w d i op h hd hv ho ih =>
    intro j s hs
    rcases Decidable.em (i = j) with rfl | hij
    · rw [call_doc_self hd] at hs
      cases hs
      exact hstep d op (ih hd) hv ho
    · by_cases hr : Registers op
      · rw [C83_register hd hr] at hs
        cases e : w.doc j with
        | none => rw [e] at hs; cases hs
        | some x =>
          rw [e] at hs
          cases hs
          refine hstep x op (ih e) ?_ (hreg d x op ho hr)
          cases op <;> first | exact hr.elim | exact trivial
      · rw [C83_frame w hr hij] at hs
        exact ih hs

/-- **C83, what is proved about one document holds for many.** Every document of a process could have been brought into its state by
calls on it alone, all of them calls that were made in the process. So everything proved of the histories of one document holds of each
document of a process. -/
theorem C83_alone {allow : Op → Prop} {w : Proc} (h : Process (fun _ => allow) w) {i : Nat} {s : St} (hd : w.doc i = some s) :
    Reach allow s :=
  process_doc (ok := fun _ => allow) (P := Reach allow) (fun env classes => Reach.new env classes)
    (fun _ op hs hv ho => Reach.step op hs ho hv) (fun _ _ _ ho _ => ho) h hd

/-- **C83, also for orderly histories.** -/
theorem C83_orderly {w : Proc} (h : Process Orderly w) {i : Nat} {s : St} (hd : w.doc i = some s) : OrderlyHistory s := by
  refine process_doc (fun env classes => OrderlyHistory.new env classes) (fun _ op hs hv ho => OrderlyHistory.step op hs hv ho) ?_ h hd
  intro s s' op _ hr
  cases op <;> first | exact hr.elim | exact trivial

/-! ## Concrete cases -/

/-- Two new documents. -/
def world2 : Proc := (Proc.start.opened exEnv).opened exEnv

/-- Interleaved calls on the two documents; one of them raises. -/
def calls2 : List (Nat × Op) :=
  [(0, .newSection (py!"Alpha") []), (1, .newTerm 0 (py!"Root.Title") (.str (py!"x")) []), (0, .newTerm 1 (py!"Root.Name") (.str (py!"n")) []),
   (1, .delSection (py!"Root")), (1, .newSection (py!"Beta") []), (0, .sectionDelItem 1 (py!"Root.Name"))]

/-- The sections and the names and values of the terms of a document. -/
def gist (s : St) : List Str × List (Str × Val) := (s.sections.keys, s.terms.map fun t => ((s.heap t).joinLc, (s.heap t).value))

example : ∀ c ∈ calls2, ¬ Registers c.2 := by
  simp only [calls2, List.mem_cons, List.not_mem_nil, or_false]
  rintro c (rfl | rfl | rfl | rfl | rfl | rfl) <;> exact id
example : ((world2.run calls2).doc 0).map gist =
    some ([py!"root", py!"alpha"], [(py!"root.name", .str (py!"n"))]) := by decide +kernel
example : ((world2.run calls2).doc 1).map gist = some ([py!"beta"], [(py!"root.title", .str (py!"x"))]) := by decide +kernel

/-- A process that registers a class through its first document and makes a term of that name in the second. -/
def worldReg : Proc :=
  (world2.call 0 (.registerClass (py!"Root.Name") (.user 7))).call 1 (.newTerm 0 (py!"Root.Name") (.str (py!"n")) [])

theorem worldReg_process : Process (fun _ => Op.noAddChild) worldReg := by
  have h2 : Process (fun _ => Op.noAddChild) world2 := .opened _ (.opened _ .start)
  have h3 := Process.call (s := newDoc exEnv) 0 (.registerClass (py!"Root.Name") (.user 7)) h2 rfl trivial trivial
  refine Process.call (s := { newDoc exEnv with classes := initClasses.set (py!"root.name") (.user 7) }) 1 _ h3 rfl ?_ trivial
  exact ⟨by decide, by decide⟩

/-- The documents of such a process are well-formed. -/
example : ∃ s, worldReg.doc 1 = some s ∧ WF True s ∧ s.terms = [1] :=
  ⟨_, rfl, (C83_alone worldReg_process (i := 1) rfl).wf fun _ _ h => h, by decide +kernel⟩

/-- **C83, documents do share the registered classes.** A term made in the second document gets the class that was registered through the
first; without the registration it is a plain term. -/
theorem C83_shared_witness :
    ((worldReg.doc 1).map fun s => (s.heap 1).cls) = some (.user 7) ∧
    (((world2.call 1 (.newTerm 0 (py!"Root.Name") (.str (py!"n")) [])).doc 1).map fun s => (s.heap 1).cls) = some .term := by
  decide +kernel

end Metatab
