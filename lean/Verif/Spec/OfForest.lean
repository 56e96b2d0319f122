import Verif.Spec.Sound
import Verif.Lemmas.Html
import Verif.Lemmas.ShadowOps
import Verif.Props.Api

set_option autoImplicit false

/-!
# Documents with a given body content

`Document.ofForest` turns a list of trees into a document with that body content. It is used to
state properties about tree values and to give concrete cases.
-/

namespace Hotmeal

open Arena

mutual
/-- Add a tree below `p`. Document nodes are skipped. -/
def addTree (A : Arena NodeData) (p : Nat) : Html → Arena NodeData
  | .document => A
  | .text s => (A.addChild p ⟨.text s, .html⟩).1
  | .comment s => (A.addChild p ⟨.comment s, .html⟩).1
  | .element tag attrs cs => addTrees (A.addChild p ⟨.element tag attrs, .html⟩).1 A.next cs
/-- Add trees below `p`. -/
def addTrees (A : Arena NodeData) (p : Nat) : List Html → Arena NodeData
  | [] => A
  | c :: cs => addTrees (addTree A p c) p cs
end

/-- A new document with the given body content. Node 2 is the body. -/
def Document.ofForest (cs : List Html) : Document :=
  { Document.new with arena := addTrees Document.new.arena 2 cs }

mutual
/-- No document node, attribute names unique, no second body element and, unless `o`, no opaque
element. -/
def Html.tidy (o : Bool) : Html → Bool
  | .document => false
  | .text _ => true
  | .comment _ => true
  | .element tag attrs cs =>
    decide attrs.Unique && tag != "body".toList && (o || !attrs.isOpaque) && tidyL o cs
/-- `tidy` for every tree of a list. -/
def Html.tidyL (o : Bool) : List Html → Bool
  | [] => true
  | c :: cs => c.tidy o && tidyL o cs
end

/-- No document node, attribute names unique, no second body element and no opaque element. -/
abbrev Html.plainL : List Html → Bool := Html.tidyL false

/-- Node data of a tidy tree. -/
def PlainData (o : Bool) (d : NodeData) : Prop := d.kind ≠ .document ∧ d.ns = .html ∧
  ∀ tag attrs, d.kind = .element tag attrs → attrs.Unique ∧ tag ≠ "body".toList ∧
    (o = true ∨ attrs.isOpaque = false)

/-- The trees `cs` were added below `p`. -/
structure Planted (o : Bool) (A : Arena NodeData) (p : Nat) (cs : List Html) (A' : Arena NodeData)
    (ids : List Nat) : Prop where
  sound : A'.Sound
  le : A.next ≤ A'.next
  parent : ∀ i, i < A.next → A'.parent i = A.parent i
  data : ∀ i, i < A.next → A'.data i = A.data i
  children : ∀ i, i < A.next → A'.children i = A.children i ++ if i = p then ids else []
  trees : ids.map A'.tree = cs
  ids_new : ∀ i ∈ ids, A.next ≤ i
  new : ∀ i, A.next ≤ i → i < A'.next → A'.Anc p i ∧ PlainData o (A'.data i)

theorem Planted.desc_new {o : Bool} {A A' : Arena NodeData} {p : Nat} {cs : List Html} {ids : List Nat}
    (h : Planted o A p cs A' ids) (hA : A.WF) {i m : Nat} (hi : A.next ≤ i) (hm : A'.Anc i m) :
    A.next ≤ m := by
  induction hm with
  | refl => exact hi
  | @step m q hq _ ih =>
    apply Classical.byContradiction
    intro hlt
    rw [h.parent m (by omega)] at hq
    have := (hA.lt_of_parent _ _ hq).2
    omega

theorem Planted.trans {o : Bool} {A A1 A2 : Arena NodeData} {p : Nat} {cs ds : List Html} {is js : List Nat}
    (h1 : Planted o A p cs A1 is) (h2 : Planted o A1 p ds A2 js) (hA : A.WF) (hp : p < A.next) :
    Planted o A p (cs ++ ds) A2 (is ++ js) := by
  have hle := h1.le
  refine ⟨h2.sound, Nat.le_trans h1.le h2.le, ?_, ?_, ?_, ?_, ?_, ?_⟩
  · intro i hi; rw [h2.parent i (by omega), h1.parent i hi]
  · intro i hi; rw [h2.data i (by omega), h1.data i hi]
  · intro i hi
    rw [h2.children i (by omega), h1.children i hi]
    by_cases e : i = p <;> simp [e]
  · rw [List.map_append, h2.trees, ← h1.trees]
    congr 1
    apply List.map_congr_left
    intro i hi
    apply tree_congr h1.sound.wf h2.sound.wf
    intro m hm
    have hge := h1.desc_new hA (h1.ids_new i hi) hm
    have hlt : m < A1.next := by
      rcases hm.cases' with e | ⟨q, hq, _⟩
      · subst e
        have : A1.parent i = some p := (h1.sound.wf.mem_iff _ _).1 (by
          rw [h1.children p hp, if_pos rfl]; exact List.mem_append.2 (.inr hi))
        exact (h1.sound.wf.lt_of_parent _ _ this).1
      · exact (h1.sound.wf.lt_of_parent _ _ hq).1
    rw [h2.children m hlt, if_neg (by omega), List.append_nil, h2.data m hlt]
    exact ⟨rfl, rfl⟩
  · intro i hi
    rcases List.mem_append.1 hi with hi | hi
    · exact h1.ids_new i hi
    · have := h2.ids_new i hi; omega
  · intro i hi hi2
    by_cases h : i < A1.next
    · obtain ⟨a1, a2⟩ := h1.new i hi h
      exact ⟨(anc_of_parent_eq h1.sound.wf (fun m hm => h2.parent m hm) h).2 a1, by
        rw [h2.data i h]; exact a2⟩
    · exact h2.new i (by omega) hi2

theorem addChild_sound {A : Arena NodeData} (h : A.Sound) {p : Nat} (hp : p < A.next)
    (hcon : A.Container p) (d : NodeData) (hd : d.kind ≠ .document)
    (hu : ∀ tag attrs, d.kind = .element tag attrs → attrs.Unique) : (A.addChild p d).1.Sound := by
  have hn := h.newNode d hu
  refine hn.appendRaw (p := p) (c := A.next) (by rw [newNode_next]; omega)
    (by rw [newNode_next]; omega) ?_ ?_ ?_
  · intro ha
    have := h.wf.newNode_parent d
    rcases ha.cases' with e | ⟨q, hq, ha'⟩
    · omega
    · rw [this] at hq
      have hlt : ∀ m, (A.newNode d).1.Anc A.next m → m < A.next → False := by
        intro m hm
        induction hm with
        | refl => intro h; omega
        | step hq' _ ih =>
          intro _
          rw [this] at hq'
          exact ih (h.wf.lt_of_parent _ _ hq').2
      exact hlt q ha' (h.wf.lt_of_parent _ _ hq).2
  · unfold Arena.Container
    rw [newNode_data, if_neg (by omega)]; exact hcon
  · rw [newNode_data, if_pos rfl]; exact hd

/-- One node without children. -/
theorem plant_leaf {o : Bool} {A : Arena NodeData} (h : A.Sound) {p : Nat} (hp : p < A.next)
    (hcon : A.Container p) (d : NodeData) (hd : PlainData o d) :
    Planted o A p [Html.ofKind d.kind []] (A.addChild p d).1 [A.next] := by
  have hs := addChild_sound h hp hcon d hd.1 (fun t a e => (hd.2.2 t a e).1)
  have hc := h.wf.addChild_children p d
  have hpar := h.wf.addChild_parent p d
  have hda := addChild_data A p d
  have hnx := addChild_next A p d
  generalize (A.addChild p d).1 = A' at *
  refine ⟨hs, by omega, ?_, ?_, ?_, ?_, by simp, ?_⟩
  · intro i hi; rw [hpar, if_neg (by omega)]
  · intro i hi; rw [hda, if_neg (by omega)]
  · intro i hi
    rw [hc]
    by_cases e : i = p <;> simp [e]
  · simp only [List.map_cons, List.map_nil]
    rw [hs.wf.tree_eq, hda, if_pos rfl]
    unfold Arena.forest
    rw [hc, if_neg (by omega), h.wf.children_ge (Nat.le_refl _)]
    rfl
  · intro i hi hi2
    have : i = A.next := by omega
    subst this
    refine ⟨.step (p := p) (by rw [hpar, if_pos rfl]) .refl, ?_⟩
    rw [hda, if_pos rfl]; exact hd

/-- A node and then trees below it. -/
theorem plant_node {o : Bool} {A : Arena NodeData} (h : A.Sound) {p : Nat} (hp : p < A.next)
    (hcon : A.Container p) {tag : Str} {attrs : Attrs} (hd : PlainData o ⟨.element tag attrs, .html⟩)
    {cs : List Html} {A' : Arena NodeData} {ids : List Nat}
    (hcs : Planted o (A.addChild p ⟨.element tag attrs, .html⟩).1 A.next cs A' ids) :
    Planted o A p [.element tag attrs cs] A' [A.next] := by
  have hl := plant_leaf h hp hcon _ hd
  have hc := h.wf.addChild_children p ⟨.element tag attrs, .html⟩
  have hpar := h.wf.addChild_parent p ⟨.element tag attrs, .html⟩
  have hda := addChild_data A p ⟨.element tag attrs, .html⟩
  have hnx := addChild_next A p ⟨.element tag attrs, .html⟩
  generalize (A.addChild p ⟨.element tag attrs, .html⟩).1 = A1 at *
  have hle := hcs.le
  have hanc : A'.Anc p A.next := .step (p := p) (by
    rw [hcs.parent _ (by omega), hpar, if_pos rfl]) .refl
  refine ⟨hcs.sound, by omega, ?_, ?_, ?_, ?_, by simp, ?_⟩
  · intro i hi; rw [hcs.parent i (by omega), hpar, if_neg (by omega)]
  · intro i hi; rw [hcs.data i (by omega), hda, if_neg (by omega)]
  · intro i hi
    rw [hcs.children i (by omega), hc, if_neg (by omega : i ≠ A.next), List.append_nil]
    by_cases e : i = p <;> simp [e]
  · simp only [List.map_cons, List.map_nil]
    rw [hcs.sound.wf.tree_eq, hcs.data _ (by omega), hda, if_pos rfl]
    unfold Arena.forest
    rw [hcs.children _ (by omega), if_pos rfl, hc, if_neg (by omega),
      h.wf.children_ge (Nat.le_refl _), List.nil_append, hcs.trees]
    rfl
  · intro i hi hi2
    by_cases e : i < A1.next
    · have : i = A.next := by omega
      subst this
      refine ⟨hanc, ?_⟩
      rw [hcs.data _ e, hda, if_pos rfl]; exact hd
    · obtain ⟨a1, a2⟩ := hcs.new i (by omega) hi2
      exact ⟨hanc.trans a1, a2⟩

mutual
theorem addTree_planted (o : Bool) : ∀ (t : Html) (A : Arena NodeData) (p : Nat), t.tidy o = true → A.Sound →
    p < A.next → A.Container p → ∃ i, Planted o A p [t] (addTree A p t) [i]
  | .document, A, p, h, hs, hp, hc => by simp [Html.tidy] at h
  | .text s, A, p, h, hs, hp, hc => by
    simp only [addTree]
    exact ⟨_, plant_leaf hs hp hc ⟨.text s, .html⟩ ⟨by simp, rfl, fun _ _ e => by cases e⟩⟩
  | .comment s, A, p, h, hs, hp, hc => by
    simp only [addTree]
    exact ⟨_, plant_leaf hs hp hc ⟨.comment s, .html⟩ ⟨by simp, rfl, fun _ _ e => by cases e⟩⟩
  | .element tag attrs cs, A, p, h, hs, hp, hc => by
    simp only [Html.tidy, Bool.and_eq_true, decide_eq_true_eq, bne_iff_ne, ne_eq,
      Bool.or_eq_true, Bool.not_eq_true'] at h
    obtain ⟨⟨⟨h1, h2⟩, h3⟩, h4⟩ := h
    have hd : PlainData o ⟨.element tag attrs, .html⟩ := ⟨by simp, rfl, by
      rintro t a e; cases e; exact ⟨h1, h2, h3⟩⟩
    have hl := plant_leaf hs hp hc _ hd
    obtain ⟨ids, hids⟩ := addTrees_planted o cs (A.addChild p ⟨.element tag attrs, .html⟩).1 A.next h4
      hl.sound (by rw [addChild_next]; omega) (by
        right; exact ⟨tag, attrs, by rw [addChild_data, if_pos rfl]⟩)
    simp only [addTree]
    exact ⟨_, plant_node hs hp hc hd hids⟩
theorem addTrees_planted (o : Bool) : ∀ (cs : List Html) (A : Arena NodeData) (p : Nat),
    Html.tidyL o cs = true → A.Sound → p < A.next → A.Container p →
    ∃ ids, Planted o A p cs (addTrees A p cs) ids
  | [], A, p, _, hs, _, _ => by
    simp only [addTrees]
    refine ⟨[], hs, Nat.le_refl _, fun _ _ => rfl, fun _ _ => rfl, by simp, rfl, by simp, ?_⟩
    intro i h1 h2; omega
  | c :: cs, A, p, h, hs, hp, hc => by
    simp only [Html.tidyL, Bool.and_eq_true] at h
    obtain ⟨i, h1⟩ := addTree_planted o c A p h.1 hs hp hc
    have hle := h1.le
    obtain ⟨ids, h2⟩ := addTrees_planted o cs (addTree A p c) p h.2 h1.sound (by omega) (by
      unfold Arena.Container; rw [h1.data p hp]; exact hc)
    simp only [addTrees]
    exact ⟨_, h1.trans h2 hs.wf hp⟩
end

/-- What `Document.ofForest` builds. -/
theorem ofForest_tidy {o : Bool} (cs : List Html) (h : Html.tidyL o cs = true) :
    (Document.ofForest cs).Sound ∧ (Document.ofForest cs).body = some 2 ∧
    (Document.ofForest cs).bodyForest = cs ∧
    (Document.ofForest cs).arena.data 2 = Document.elem "body".toList ∧
    ∀ n, (Document.ofForest cs).arena.Anc 2 n → n ≠ 2 →
      PlainData o ((Document.ofForest cs).arena.data n) := by
  obtain ⟨ids, hp⟩ := addTrees_planted o cs Document.new.arena 2 h Document.new_sound.arena (by decide)
    (by right; exact ⟨_, _, rfl⟩)
  have hle : 3 ≤ (Document.ofForest cs).arena.next := hp.le
  have hd : ∀ i, i < 3 → (Document.ofForest cs).arena.data i = Document.new.arena.data i := hp.data
  have hch0 : (Document.ofForest cs).arena.children 0 = [1, 2] := hp.children 0 (by decide)
  have hch2 : (Document.ofForest cs).arena.children 2 = ids := hp.children 2 (by decide)
  have hbody : (Document.ofForest cs).body = some 2 := by
    unfold Document.body
    show ((Document.ofForest cs).arena.children 0).find? _ = _
    rw [hch0]
    have h1 : (Document.ofForest cs).hasTag "body".toList 1 = false := by
      unfold Document.hasTag; rw [hd 1 (by decide)]; decide
    have h2 : (Document.ofForest cs).hasTag "body".toList 2 = true := by
      unfold Document.hasTag; rw [hd 2 (by decide)]; decide
    rw [List.find?_cons, h1, List.find?_cons, h2]
  refine ⟨⟨hp.sound, by show 0 < _; omega⟩, hbody, ?_, ?_, ?_⟩
  · unfold Document.bodyForest
    rw [hbody]
    show ((Document.ofForest cs).arena.children 2).map _ = _
    rw [hch2]; exact hp.trees
  · rw [hd 2 (by decide)]; rfl
  · intro n hn hne
    have hw := hp.sound.wf
    rcases hn.cases' with e | ⟨q, hq, _⟩
    · exact absurd e.symm hne
    · have hlt := (hw.lt_of_parent _ _ hq).1
      by_cases e : n < 3
      · have hpar := hp.parent n e
        -- the nodes of an empty document: html, head, body
        have h2 : Document.new.arena.Anc 2 n := (anc_of_parent_eq Document.new_sound.arena.wf
          (fun m hm => hp.parent m hm) e).1 hn
        have : n = 2 := by
          have hc : Document.new.arena.children 2 = [] := rfl
          rcases h2.cases' with e | ⟨q, hq, h3⟩
          · exact e.symm
          · exfalso
            have hq0 : q = 0 := by
              have : n = 0 ∨ n = 1 ∨ n = 2 := by omega
              rcases this with rfl | rfl | rfl
              · cases hq
              · cases hq; rfl
              · cases hq; rfl
            subst hq0
            rcases h3.cases' with e | ⟨q, hq, _⟩
            · cases e
            · cases hq
        exact absurd this hne
      · exact (hp.new n (by show 3 ≤ n; omega) hlt).2

theorem ofForest_spec (cs : List Html) (h : Html.plainL cs = true) :
    (Document.ofForest cs).Sound ∧ (Document.ofForest cs).body = some 2 ∧
    (Document.ofForest cs).bodyForest = cs ∧
    (Document.ofForest cs).arena.data 2 = Document.elem "body".toList ∧
    ∀ n, (Document.ofForest cs).arena.Anc 2 n → n ≠ 2 →
      PlainData false ((Document.ofForest cs).arena.data n) := ofForest_tidy cs h

/-- There is one body element. -/
theorem ofForest_apart {o : Bool} (cs : List Html) (h : Html.tidyL o cs = true) :
    ∀ n attrs, (Document.ofForest cs).arena.Anc 2 n →
      ((Document.ofForest cs).arena.data n).kind = .element "body".toList attrs → n = 2 := by
  obtain ⟨_, _, _, h4, h5⟩ := ofForest_tidy cs h
  intro n attrs hn hk
  apply Classical.byContradiction
  intro hne
  exact ((h5 n hn hne).2.2 _ _ hk).2.1 rfl

/-- Plain content has no opaque elements. -/
theorem ofForest_clear (cs : List Html) (h : Html.plainL cs = true) :
    ∀ n tag attrs, (Document.ofForest cs).arena.Anc 2 n →
      ((Document.ofForest cs).arena.data n).kind = .element tag attrs → attrs.isOpaque = false := by
  obtain ⟨_, _, _, h4, h5⟩ := ofForest_spec cs h
  intro n tag attrs hn hk
  by_cases e : n = 2
  · subst e
    rw [h4] at hk
    cases hk
    rfl
  · rcases ((h5 n hn e).2.2 _ _ hk).2.2 with e | e
    · cases e
    · exact e

/-! ### Forests with opaque and nested body elements -/

mutual
/-- No document node, attribute names unique. -/
def Html.valid : Html → Bool
  | .document => false
  | .text _ => true
  | .comment _ => true
  | .element _ attrs cs => decide attrs.Unique && validL cs
/-- `valid` for every tree of a list. -/
def Html.validL : List Html → Bool
  | [] => true
  | c :: cs => c.valid && validL cs
end

/-- `A'` is a sound arena that extends `A`. -/
structure Extends (A A' : Arena NodeData) : Prop where
  sound : A'.Sound
  le : A.next ≤ A'.next
  data : ∀ i, i < A.next → A'.data i = A.data i

mutual
theorem addTree_extends : ∀ (t : Html) (A : Arena NodeData) (p : Nat), t.valid = true → A.Sound →
    p < A.next → A.Container p → Extends A (addTree A p t)
  | .document, A, p, h, hs, hp, hc => by simp [Html.valid] at h
  | .text s, A, p, h, hs, hp, hc => by
    simp only [addTree]
    exact ⟨addChild_sound hs hp hc _ (by simp) (fun _ _ e => by cases e),
      by rw [addChild_next]; omega, fun i hi => by rw [addChild_data, if_neg (by omega)]⟩
  | .comment s, A, p, h, hs, hp, hc => by
    simp only [addTree]
    exact ⟨addChild_sound hs hp hc _ (by simp) (fun _ _ e => by cases e),
      by rw [addChild_next]; omega, fun i hi => by rw [addChild_data, if_neg (by omega)]⟩
  | .element tag attrs cs, A, p, h, hs, hp, hc => by
    simp only [Html.valid, Bool.and_eq_true, decide_eq_true_eq] at h
    have h1 := addChild_sound hs hp hc ⟨.element tag attrs, .html⟩ (by simp)
      (fun _ _ e => by cases e; exact h.1)
    have h2 := addTrees_extends cs (A.addChild p ⟨.element tag attrs, .html⟩).1 A.next h.2 h1
      (by rw [addChild_next]; omega) (by
        right; exact ⟨tag, attrs, by rw [addChild_data, if_pos rfl]⟩)
    have h3 := h2.le
    rw [addChild_next] at h3
    simp only [addTree]
    exact ⟨h2.sound, by omega, fun i hi => by
      rw [h2.data i (by rw [addChild_next]; omega), addChild_data, if_neg (by omega)]⟩
theorem addTrees_extends : ∀ (cs : List Html) (A : Arena NodeData) (p : Nat),
    Html.validL cs = true → A.Sound → p < A.next → A.Container p → Extends A (addTrees A p cs)
  | [], A, p, _, hs, _, _ => by
    simp only [addTrees]
    exact ⟨hs, Nat.le_refl _, fun _ _ => rfl⟩
  | c :: cs, A, p, h, hs, hp, hc => by
    simp only [Html.validL, Bool.and_eq_true] at h
    have h1 := addTree_extends c A p h.1 hs hp hc
    have hle := h1.le
    have h2 := addTrees_extends cs (addTree A p c) p h.2 h1.sound (by omega) (by
      unfold Arena.Container; rw [h1.data p hp]; exact hc)
    simp only [addTrees]
    exact ⟨h2.sound, Nat.le_trans h1.le h2.le, fun i hi => by
      rw [h2.data i (by omega), h1.data i hi]⟩
end

/-- Every valid forest gives a sound arena. -/
theorem ofForest_valid (cs : List Html) (h : Html.validL cs = true) :
    (Document.ofForest cs).arena.Sound :=
  (addTrees_extends cs Document.new.arena 2 h Document.new_sound.arena (by decide)
    (by right; exact ⟨_, _, rfl⟩)).sound

end Hotmeal
