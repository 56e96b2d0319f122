import Verif.Lemmas.DocOps
import Verif.Lemmas.Html

set_option autoImplicit false
set_option linter.unusedSectionVars false

/-!
# The nodes created for the content of an InsertElement patch
-/

namespace Hotmeal

/-- `A'` has new nodes, but the nodes of `A` are as they were. -/
structure Grows (A A' : Arena NodeData) : Prop where
  wf : A'.WF
  le : A.next ≤ A'.next
  parent : ∀ i, i < A.next → A'.parent i = A.parent i
  children : ∀ i, i < A.next → A'.children i = A.children i
  data : ∀ i, i < A.next → A'.data i = A.data i

/-- The same, except that `n` may have new children. -/
structure GrowsAt (n : Nat) (A A' : Arena NodeData) : Prop where
  wf : A'.WF
  le : A.next ≤ A'.next
  parent : ∀ i, i < A.next → A'.parent i = A.parent i
  children : ∀ i, i < A.next → i ≠ n → A'.children i = A.children i
  data : ∀ i, i < A.next → A'.data i = A.data i

theorem Grows.newNode {A : Arena NodeData} (h : A.WF) (d : NodeData) : Grows A (A.newNode d).1 :=
  ⟨h.newNode d, by simp, fun i _ => h.newNode_parent d i, fun i _ => h.newNode_children d i,
    fun i hi => by rw [Arena.newNode_data, if_neg (by omega)]⟩

mutual
/-- The tree described by insert content. -/
def InsertContent.html : InsertContent → Html
  | .element tag attrs cs => .element tag attrs (htmlL cs)
  | .text s => .text s
  | .comment s => .comment s
/-- The trees described by a list of insert content. -/
def InsertContent.htmlL : List InsertContent → List Html
  | [] => []
  | c :: cs => c.html :: htmlL cs
end

theorem InsertContent.htmlL_eq (cs : List InsertContent) : htmlL cs = cs.map html := by
  induction cs with
  | nil => rfl
  | cons c cs ih => simp [htmlL, ih]

/-- Nodes of `A'` that are not in `A` are not documents and are in the HTML namespace; text nodes
have no children. -/
def FreshPlain (A A' : Arena NodeData) : Prop :=
  ∀ i, A.next ≤ i → i < A'.next → (A'.data i).kind ≠ .document ∧ (A'.data i).ns = .html ∧
    ∀ s, (A'.data i).kind = .text s → A'.children i = []

/-- Below a new node there are only new nodes. -/
theorem desc_new {A A' : Arena NodeData} (h : A.WF)
    (hp : ∀ i, i < A.next → A'.parent i = A.parent i) {m x : Nat} (hm : A.next ≤ m)
    (hx : A'.Anc m x) : A.next ≤ x := by
  induction hx with
  | refl => exact hm
  | @step x q hq _ ih =>
    apply Classical.byContradiction
    intro hlt
    rw [hp x (by omega)] at hq
    have := (h.lt_of_parent _ _ hq).2
    omega

theorem lt_of_anc {α : Type} {A : Arena α} (h : A.WF) {m x : Nat} (hm : m < A.next) (hx : A.Anc m x) :
    x < A.next := by
  rcases hx.cases' with rfl | ⟨q, hq, _⟩
  · exact hm
  · exact (h.lt_of_parent _ _ hq).1

mutual
theorem createInsertContent_tree : ∀ (c : InsertContent) (A : Arena NodeData), A.WF →
    ∃ A' m, createInsertContent A c = .ok (A', m) ∧ Grows A A' ∧ A.next ≤ m ∧ m < A'.next ∧
      A'.parent m = none ∧ A'.tree m = c.html ∧ FreshPlain A A'
  | .element tag attrs children, A, h => by
    have hn := Grows.newNode h ⟨.element tag attrs, .html⟩
    obtain ⟨A', ids, e, hA', hk, ht, _, hf⟩ := appendInsertContents_tree children
      (A.newNode ⟨.element tag attrs, .html⟩).1 A.next hn.wf (by simp)
    have hle := hA'.le
    simp only [Arena.newNode_next] at hle
    have hd : A'.data A.next = ⟨.element tag attrs, .html⟩ := by
      rw [hA'.data _ (by simp), Arena.newNode_data, if_pos rfl]
    refine ⟨A', A.next, ?_, ?_, Nat.le_refl _, by omega, ?_, ?_, ?_⟩
    · simp only [createInsertContent, Arena.newNode_snd, e, bind, Except.bind]
    · refine ⟨hA'.wf, by omega, ?_, ?_, ?_⟩
      · intro i hi
        rw [hA'.parent i (by simp; omega)]; exact hn.parent i hi
      · intro i hi
        rw [hA'.children i (by simp; omega) (by omega)]; exact hn.children i hi
      · intro i hi
        rw [hA'.data i (by simp; omega)]; exact hn.data i hi
    · rw [hA'.parent _ (by simp), h.newNode_parent]
      exact h.parent_ge (Nat.le_refl _)
    · rw [hA'.wf.tree_eq, hd]
      show Html.element tag attrs (A'.forest A.next) = _
      rw [InsertContent.html, InsertContent.htmlL_eq, ← ht, Arena.forest, hk, h.newNode_children,
        h.children_ge (Nat.le_refl _), List.nil_append]
    · intro i h1 h2
      by_cases e : i = A.next
      · rw [e, hd]; exact ⟨fun e => (by cases e), rfl, fun s e => (by cases e)⟩
      · exact hf i (by rw [Arena.newNode_next]; omega) h2
  | .text s, A, h => by
    have hn := Grows.newNode h ⟨.text s, .html⟩
    refine ⟨(A.newNode ⟨.text s, .html⟩).1, A.next, rfl, hn, Nat.le_refl _, by simp, ?_, ?_, ?_⟩
    · rw [h.newNode_parent]; exact h.parent_ge (Nat.le_refl _)
    · rw [hn.wf.tree_eq, Arena.newNode_data, if_pos rfl]; rfl
    · intro i h1 h2
      rw [Arena.newNode_next] at h2
      rw [Arena.newNode_data, if_pos (by omega)]
      exact ⟨fun e => (by cases e), rfl, fun _ _ => by rw [h.newNode_children]; exact h.children_ge h1⟩
  | .comment s, A, h => by
    have hn := Grows.newNode h ⟨.comment s, .html⟩
    refine ⟨(A.newNode ⟨.comment s, .html⟩).1, A.next, rfl, hn, Nat.le_refl _, by simp, ?_, ?_, ?_⟩
    · rw [h.newNode_parent]; exact h.parent_ge (Nat.le_refl _)
    · rw [hn.wf.tree_eq, Arena.newNode_data, if_pos rfl]; rfl
    · intro i h1 h2
      rw [Arena.newNode_next] at h2
      rw [Arena.newNode_data, if_pos (by omega)]
      exact ⟨fun e => (by cases e), rfl, fun _ _ => by rw [h.newNode_children]; exact h.children_ge h1⟩

theorem appendInsertContents_tree : ∀ (cs : List InsertContent) (A : Arena NodeData) (n : Nat), A.WF →
    n < A.next → ∃ A' ids, appendInsertContents A n cs = .ok A' ∧ GrowsAt n A A' ∧
      A'.children n = A.children n ++ ids ∧ ids.map A'.tree = cs.map InsertContent.html ∧
      (∀ i ∈ ids, A.next ≤ i) ∧ FreshPlain A A'
  | [], A, n, h, _ => ⟨A, [], rfl, ⟨h, Nat.le_refl _, fun _ _ => rfl, fun _ _ _ => rfl,
      fun _ _ => rfl⟩, by simp, rfl, by simp, fun i h1 h2 => by omega⟩
  | c :: cs, A, n, h, hn => by
    obtain ⟨A1, m, e1, h1, hm, hm', hmp, htm, hf1⟩ := createInsertContent_tree c A h
    have hle := h1.le
    have hanc : ¬ A1.Anc m n := by
      intro ha
      have := desc_new h h1.parent hm ha
      omega
    have e2 := h1.wf.append_ok hanc
    have hw2 := h1.wf.appendRaw (p := n) (c := m) (by omega) hm' hanc
    have er := Arena.appendRaw_of_parent_none (p := n) hmp
    have hch2 : ∀ i, (A1.appendRaw n m).children i = if i = n then A1.children n ++ [m] else A1.children i := by
      intro i
      rw [er]
      show Arena.upd A1.children n _ i = _
      rw [Arena.upd_apply]
    have hda2 : (A1.appendRaw n m).data = A1.data := by rw [er]
    have hnx2 : (A1.appendRaw n m).next = A1.next := by rw [er]
    have hpa2 : ∀ i, (A1.appendRaw n m).parent i = if i = m then some n else A1.parent i := by
      intro i
      rw [er]
      show Arena.upd A1.parent m _ i = _
      rw [Arena.upd_apply]
    obtain ⟨A', ids, e3, h3, hk, ht, hge, hf3⟩ := appendInsertContents_tree cs (A1.appendRaw n m) n hw2
      (by rw [hnx2]; omega)
    have hle3 : A1.next ≤ A'.next := by have := h3.le; rw [hnx2] at this; exact this
    refine ⟨A', m :: ids, ?_, ⟨h3.wf, by omega, ?_, ?_, ?_⟩, ?_, ?_, ?_, ?_⟩
    · simp only [appendInsertContents, e1, e2, e3, bind, Except.bind]
    · intro i hi
      rw [h3.parent i (by rw [hnx2]; omega), hpa2, if_neg (by omega), h1.parent i hi]
    · intro i hi hne
      rw [h3.children i (by rw [hnx2]; omega) hne, hch2, if_neg hne, h1.children i hi]
    · intro i hi
      rw [h3.data i (by rw [hnx2]; omega), hda2]
      exact h1.data i hi
    · rw [hk, hch2, if_pos rfl, h1.children n hn]; simp
    · rw [List.map_cons, List.map_cons, ht, ← htm]
      congr 1
      apply Arena.tree_congr h1.wf h3.wf
      intro x hx
      have hx1 := desc_new h h1.parent hm hx
      have hx2 := lt_of_anc h1.wf hm' hx
      rw [h3.children x (by rw [hnx2]; omega) (by omega), hch2, if_neg (by omega),
        h3.data x (by rw [hnx2]; omega), hda2]
      exact ⟨rfl, rfl⟩
    · intro i hi
      rcases List.mem_cons.1 hi with rfl | hi
      · exact hm
      · have := hge i hi; rw [hnx2] at this; omega
    · intro i hi1 hi2
      by_cases hlt : i < A1.next
      · rw [h3.data i (by rw [hnx2]; omega), hda2, h3.children i (by rw [hnx2]; omega) (by omega),
          hch2, if_neg (by omega)]
        exact hf1 i hi1 hlt
      · exact hf3 i (by rw [hnx2]; omega) hi2
end

/-- A new parentless node, with new nodes below it, was added to the document. -/
structure Created (D D' : Arena NodeData) (d : NodeData) : Prop where
  wf : D'.WF
  next_lt : D.next < D'.next
  parent : ∀ m, m < D.next → D'.parent m = D.parent m
  children : ∀ m, m < D.next → D'.children m = D.children m
  data : ∀ m, m < D.next → D'.data m = D.data m
  self : D'.parent D.next = none
  node : D'.data D.next = d
  leaf : ∀ m s, D.next ≤ m → (D'.data m).kind = .text s → D'.children m = []

theorem Arena.WF.created {D : Arena NodeData} (h : D.WF) (d : NodeData) :
    Created D (D.newNode d).1 d := by
  have dc := h.newNode_children d
  have dp := h.newNode_parent d
  have dd := Arena.newNode_data D d
  refine ⟨h.newNode d, Nat.lt_succ_self _, fun m _ => dp m, fun m _ => dc m, ?_, ?_, ?_, ?_⟩
  · intro m hm; rw [dd, if_neg (by omega)]
  · rw [dp]; exact h.parent_ge (Nat.le_refl _)
  · rw [dd, if_pos rfl]
  · intro m s hm _
    rw [dc]; exact h.children_ge hm

/-- A new element with content. -/
theorem Arena.WF.createdContent {D : Arena NodeData} (h : D.WF) (tag : Str) (attrs : Attrs)
    (cs : List InsertContent) :
    ∃ D', appendInsertContents (D.newNode ⟨.element tag attrs, .html⟩).1 D.next cs = .ok D' ∧
      Created D D' ⟨.element tag attrs, .html⟩ ∧ D'.forest D.next = InsertContent.htmlL cs ∧
      ∀ i, D.next ≤ i → i < D'.next → (D'.data i).ns = .html := by
  have hc := h.created ⟨.element tag attrs, .html⟩
  obtain ⟨D', ids, e, hg, hk, ht, _, hf⟩ := appendInsertContents_tree cs
    (D.newNode ⟨.element tag attrs, .html⟩).1 D.next hc.wf (by simp)
  have hle := hg.le
  simp only [Arena.newNode_next] at hle
  refine ⟨D', e, ⟨hg.wf, by omega, ?_, ?_, ?_, ?_, ?_, ?_⟩, ?_, ?_⟩
  · intro m hm; rw [hg.parent m (by simp; omega), hc.parent m hm]
  · intro m hm; rw [hg.children m (by simp; omega) (by omega), hc.children m hm]
  · intro m hm; rw [hg.data m (by simp; omega), hc.data m hm]
  · rw [hg.parent _ (by simp), hc.self]
  · rw [hg.data _ (by simp), hc.node]
  · intro m s hm hs
    by_cases e1 : m = D.next
    · rw [e1, hg.data _ (by simp), hc.node] at hs; cases hs
    · by_cases e2 : m < D'.next
      · exact (hf m (by rw [Arena.newNode_next]; omega) e2).2.2 s hs
      · exact hg.wf.children_ge (by omega)
  · rw [InsertContent.htmlL_eq, ← ht, Arena.forest, hk, h.newNode_children,
      h.children_ge (Nat.le_refl _), List.nil_append]
  · intro i h1 h2
    by_cases e1 : i = D.next
    · rw [e1, hg.data _ (by simp), hc.node]
    · exact (hf i (by rw [Arena.newNode_next]; omega) h2).2.1

/-- Below a created node there are only new nodes. -/
theorem Created.not_anc {D D' : Arena NodeData} {d : NodeData} (hw : D.WF) (h : Created D D' d)
    {p : Nat} (hp : p < D.next) : ¬ D'.Anc D.next p := by
  intro ha
  have := desc_new hw h.parent (Nat.le_refl _) ha
  omega

theorem Created.navLoop {D D' : Arena NodeData} {d : NodeData} (hw : D.WF) (h : Created D D' d)
    {p : Nat} (q : List Nat) : ∀ n, navLoop D n q = .ok p → navLoop D' n q = .ok p := by
  induction q with
  | nil => intro n e; exact e
  | cons i is ih =>
    intro n e
    simp only [Hotmeal.navLoop] at e ⊢
    split at e
    · cases e
    · next c hc =>
      have := (hw.lt_of_parent _ _ ((hw.mem_iff _ _).1 (List.mem_of_getElem? hc))).2
      rw [h.children n this, hc]
      exact ih c e

theorem Created.navigate {D D' : Arena NodeData} {d : NodeData} (hw : D.WF) (h : Created D D' d)
    {slots : Slots} {q : Path} {p : Nat} (e : navigate D slots q = .ok p) :
    navigate D' slots q = .ok p := by
  cases q with
  | nil => exact e
  | cons s rest =>
    simp only [Hotmeal.navigate] at e ⊢
    split at e
    · cases e
    · next n hn => exact h.navLoop hw rest n e

end Hotmeal
