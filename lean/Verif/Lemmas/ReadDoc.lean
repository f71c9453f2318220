import Verif.Lemmas.ReadBack
/-! Written outlines are files of ordinary rows, and what the reference reader makes of them. -/
namespace Metatab
open Py _root_.Spec

structure PartOk (d : Part) : Prop where
  ne : d.name ≠ []
  strip : strip d.name = d.name
  notRoot : lower d.name ≠ py!"root"
  free : freeColumns d.cols = true
  cols : ∀ c ∈ d.cols, Py.strip c = c
  nodup : ((d.cols.filter fun c => decide (c ≠ [])).map lower).Nodup
  items : d.items.all (Item.ok d.cols (py!"root")) = true

theorem partOk_iff {d : Part} : d.ok = true ↔ PartOk d := by
  unfold Part.ok
  simp only [Bool.and_eq_true, decide_eq_true_eq]
  constructor
  · rintro ⟨⟨⟨⟨⟨⟨h1, h2⟩, h3⟩, h4⟩, h5⟩, h6⟩, h7⟩
    exact ⟨h1, h2, h3, h4, fun c hc => by simpa using List.all_eq_true.1 h5 c hc, h6, h7⟩
  · rintro ⟨h1, h2, h3, h4, h5, h6, h7⟩
    exact ⟨⟨⟨⟨⟨⟨h1, h2⟩, h3⟩, h4⟩, List.all_eq_true.2 fun c hc => by simpa using h5 c hc⟩, h6⟩, h7⟩

theorem kind_sectionRow {d : Part} (h : PartOk d) : kind (py!"Section" :: d.name :: d.cols) = .section d.name d.cols := by
  have hs : Py.strip (py!"Section") = py!"Section" := by decide +kernel
  have hc : cellNames (py!"Section") = some (py!"root", py!"section") := by decide +kernel
  have hm : d.cols.map Py.strip = d.cols := (List.map_congr_left h.cols).trans (List.map_id _)
  unfold kind
  simp only
  rw [hs, hc]
  simp only [List.headD_cons, List.drop_succ_cons, List.drop_zero]
  rw [if_neg (by decide), if_pos ⟨trivial, trivial⟩, if_pos ⟨h.ne, by rw [h.strip]; exact h.notRoot, h.free⟩, h.strip, hm]

theorem name_ne_root {d : Part} (h : PartOk d) : d.name ≠ py!"Root" := by
  intro e
  exact h.notRoot (by rw [e]; decide +kernel)

theorem plain_rootItems {cols : List Str} : ∀ (is : List Item), is.all (Item.ok cols (py!"root")) = true →
    PlainSeg (py!"root") (is.flatMap (itemRows cols (py!"root")))
  | [], _ => PlainSeg.nil _
  | i :: is, h => by
    rw [List.all_cons, Bool.and_eq_true] at h
    rw [List.flatMap_cons]
    exact (plain_item i (.inl rfl) h.1).append (plain_rootItems is h.2)

theorem plain_part {d : Part} (h : PartOk d) : PlainSeg (py!"root") (partRows d) := by
  unfold partRows
  rw [if_pos (name_ne_root h)]
  refine PlainSeg.append ?_ (plain_rootItems _ h.items)
  have hn : kind [[]] = .noise := by decide +kernel
  constructor
  · intro K hK rest hr
    simp only [List.cons_append, List.nil_append]
    unfold plainFrom
    rw [hn]
    simp only
    unfold plainFrom
    rw [kind_sectionRow h]
    exact hr
  · intro row hr
    rcases List.mem_cons.1 hr with rfl | hr
    · rw [hn]; exact ⟨by simp, by simp⟩
    · obtain rfl := List.mem_singleton.1 hr
      rw [kind_sectionRow h]; exact ⟨by simp, by simp⟩
  · intro row hr
    rcases List.mem_cons.1 hr with rfl | hr
    · rw [hn]; simp
    · obtain rfl := List.mem_singleton.1 hr
      rw [kind_sectionRow h]; simp

theorem plain_parts : ∀ (ds : List Part), (∀ d ∈ ds, PartOk d) → PlainSeg (py!"root") (ds.flatMap partRows)
  | [], _ => PlainSeg.nil _
  | d :: ds, h => by
    rw [List.flatMap_cons]
    exact (plain_part (h d List.mem_cons_self)).append (plain_parts ds fun d hd => h d (List.mem_cons_of_mem _ hd))

/-- A writable outline. -/
structure Writable (r : Part) (ds : List Part) : Prop where
  name : r.name = py!"Root"
  cols : r.cols = []
  items : r.items.all (Item.ok [] (py!"root")) = true
  parts : ∀ d ∈ ds, PartOk d
  nodup : (ds.map fun d => lower d.name).Nodup

theorem writable_iff {D : List Part} : writable D = true ↔ ∃ r ds, D = r :: ds ∧ Writable r ds := by
  cases D with
  | nil => constructor
           · intro h; cases h
           · rintro ⟨r, ds, h, -⟩; cases h
  | cons r ds =>
    unfold writable
    simp only [Bool.and_eq_true, decide_eq_true_eq, List.all_eq_true (l := ds)]
    constructor
    · rintro ⟨⟨⟨⟨h1, h2⟩, h3⟩, h4⟩, h5⟩
      exact ⟨r, ds, rfl, h1, h2, h3, fun d hd => partOk_iff.1 (h4 d hd), h5⟩
    · rintro ⟨r, ds, e, h1, h2, h3, h4, h5⟩
      cases e
      exact ⟨⟨⟨⟨h1, h2⟩, h3⟩, fun d hd => partOk_iff.2 (h4 d hd)⟩, h5⟩

theorem writable_seg {D : List Part} (h : writable D = true) : PlainSeg (py!"root") (D.flatMap partRows) := by
  obtain ⟨r, ds, rfl, w⟩ := writable_iff.1 h
  rw [List.flatMap_cons]
  refine PlainSeg.append ?_ (plain_parts ds w.parts)
  unfold partRows
  rw [if_neg (by rw [w.name]; simp), w.cols, List.nil_append]
  exact plain_rootItems _ w.items

theorem writable_plain {D : List Part} (h : writable D = true) : plainFile (D.flatMap partRows) = true := by
  have := (writable_seg h).plain [py!"root"] List.mem_cons_self [] rfl
  rwa [List.append_nil] at this

/-! ## Reading -/

theorem get?_append_none {α : Type} {d : Dict α} {k : Str} {e : Str × α} (h : Dict.get? d k = none) :
    Dict.get? (d ++ [e]) k = if e.1 = k then some e.2 else none := by
  induction d with
  | nil => rw [List.nil_append, Dict.get?_cons]; rfl
  | cons x d ih =>
    rw [Dict.get?_cons] at h
    rw [List.cons_append, Dict.get?_cons]
    split at h
    · cases h
    · rename_i hx; rw [if_neg hx]; exact ih h

/-- What is read after some parts. -/
structure ReadsParts (a a' : Reader) (ds : List Part) : Prop where
  secs : a'.secs = a.secs ++ ds.map fun d => (lower d.name, d.name, d.cols)
  nodes : a'.nodes = a.nodes ++ flatD a.nodes.length (ds.map Part.norm)
  known : Dict.get? a'.known (py!"root") = some none

theorem read_part {d : Part} {a : Reader} (h : PartOk d) (hs : Dict.get? a.secs (lower d.name) = none)
    (hk : Dict.get? a.known (py!"root") = some none) :
    ReadsParts a ((partRows d).foldl Reader.row a) [d] := by
  have hn : kind [[]] = .noise := by decide +kernel
  have h1 : a.row [[]] = a := by unfold Reader.row; rw [hn]
  unfold partRows
  rw [if_pos (name_ne_root h), List.foldl_append, List.foldl_cons, h1, List.foldl_cons, List.foldl_nil]
  generalize hb : a.row (py!"Section" :: d.name :: d.cols) = b
  have hb' : b = { a with secs := a.secs ++ [(lower d.name, d.name, d.cols)], cur := lower d.name, cols := d.cols, vname := py!"@value",
                          last := (py!"root", none) } := by
    rw [← hb]
    unfold Reader.row
    rw [kind_sectionRow h]
    simp only [hs]
  obtain ⟨names, r, hr⟩ := read_rootItems (cols := d.cols) (sec := lower d.name) d.items (a := b) h.items (by rw [hb']) (by rw [hb'])
    (by rw [hb']) (by rw [hb']; exact hk)
  refine ⟨?_, ?_, ?_⟩
  · rw [r.secs, hb']; rfl
  · rw [r.nodes, hb']
    simp only [List.map_cons, List.map_nil, flatD, List.append_nil]
    rfl
  · rw [r.known _ hr, hb']; exact hk

theorem flatD_cons (b : Nat) (d : Part) (ds : List Part) : flatD b (d :: ds) = flatD b [d] ++ flatD (b + (flatD b [d]).length) ds := by
  simp [flatD]

theorem read_parts : ∀ (ds : List Part) {a : Reader}, (∀ d ∈ ds, PartOk d) → (ds.map fun d => lower d.name).Nodup →
    (∀ d ∈ ds, Dict.get? a.secs (lower d.name) = none) → Dict.get? a.known (py!"root") = some none →
    ReadsParts a ((ds.flatMap partRows).foldl Reader.row a) ds
  | [], a => fun _ _ _ hk => ⟨by simp, by simp [flatD], hk⟩
  | d :: ds, a => by
    intro hok hnd hs hk
    have r1 := read_part (hok d List.mem_cons_self) (hs d List.mem_cons_self) hk
    rw [List.map_cons, List.nodup_cons] at hnd
    have r2 := read_parts ds (a := (partRows d).foldl Reader.row a) (fun d hd => hok d (List.mem_cons_of_mem _ hd)) hnd.2 (by
      intro e he
      rw [r1.secs]
      simp only [List.map_cons, List.map_nil]
      rw [get?_append_none (hs e (List.mem_cons_of_mem _ he)), if_neg]
      intro h
      exact hnd.1 (List.mem_map.2 ⟨e, he, h.symm⟩)) r1.known
    rw [List.flatMap_cons, List.foldl_append]
    refine ⟨?_, ?_, r2.known⟩
    · rw [r2.secs, r1.secs]; simp
    · have e := flatD_cons a.nodes.length d.norm (ds.map Part.norm)
      rw [List.map_cons, e, r2.nodes, r1.nodes, List.map_cons, List.map_nil, List.append_assoc, List.length_append]

/-- The reference reader on a written outline. -/
theorem readAll_written {D : List Part} (h : writable D = true) :
    (readAll (D.flatMap partRows)).nodes = flatD 0 (D.map Part.norm) ∧
    (readAll (D.flatMap partRows)).secs = D.map fun d => (lower d.name, d.name, d.cols) := by
  obtain ⟨r, ds, rfl, w⟩ := writable_iff.1 h
  unfold readAll
  rw [List.flatMap_cons, List.foldl_append]
  have hr : partRows r = r.items.flatMap (itemRows [] (py!"root")) := by
    unfold partRows; rw [if_neg (by rw [w.name]; simp), w.cols, List.nil_append]
  have hlr : lower r.name = py!"root" := by rw [w.name]; decide +kernel
  obtain ⟨names, r1, hn⟩ := read_rootItems (cols := []) (sec := py!"root") r.items (a := Reader.start) w.items rfl rfl rfl rfl
  rw [← hr] at r1
  have r2 := read_parts ds (a := (partRows r).foldl Reader.row Reader.start) w.parts w.nodup (by
    intro d hd
    rw [r1.secs]
    simp only [Reader.start]
    rw [Dict.get?_cons, if_neg (fun e => (w.parts d hd).notRoot e.symm)]
    rfl) (by rw [r1.known _ hn]; rfl)
  constructor
  · rw [r2.nodes, r1.nodes, List.map_cons, flatD]
    simp only [Part.norm, hlr, w.cols]
    simp [Reader.start]
  · rw [r2.secs, r1.secs, List.map_cons, hlr, w.name, w.cols]
    rfl

end Metatab
