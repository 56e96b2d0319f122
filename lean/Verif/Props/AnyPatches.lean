import Verif.Lemmas.LinksBrowser
import Verif.Props.Apply
import Verif.Props.Browser
import Verif.Lemmas.Same

set_option autoImplicit false
set_option linter.unusedSectionVars false

/-!
# C53: what no patch list can do

About arbitrary patch lists: generated, hand-written or damaged, applied with or without an error.
-/

namespace Hotmeal

/-- Following child indices from `r` leads to a node. -/
inductive Walk (A : Arena NodeData) (r : Nat) : List Nat → Nat → Prop
  | nil : Walk A r [] r
  | snoc {q : List Nat} {p i c : Nat} (h : Walk A r q p) (hc : (A.children p)[i]? = some c) :
      Walk A r (q ++ [i]) c

theorem Walk.anc {A : Arena NodeData} (hA : A.Linked) {r n : Nat} {q : List Nat} (h : Walk A r q n) :
    A.Anc r n := by
  induction h with
  | nil => exact .refl
  | snoc _ hc ih => exact .step ((hA.mem_iff _ _).1 (List.mem_of_getElem? hc)) ih

/-- Without a way from `r` back to `r`, every node is reached in one way. -/
theorem Walk.unique {A : Arena NodeData} (hA : A.Linked) {r : Nat}
    (hr : ∀ p, A.parent r = some p → ¬ A.Anc r p) {n : Nat} {q q' : List Nat} (h : Walk A r q n)
    (h' : Walk A r q' n) : q = q' := by
  induction h generalizing q' with
  | nil =>
    cases h' with
    | nil => rfl
    | snoc h1 hc => exact absurd (h1.anc hA) (hr _ ((hA.mem_iff _ _).1 (List.mem_of_getElem? hc)))
  | @snoc q p i c h1 hc ih =>
    have hp := (hA.mem_iff _ _).1 (List.mem_of_getElem? hc)
    cases h' with
    | nil => exact absurd (h1.anc hA) (hr _ hp)
    | @snoc q' p' i' _ h1' hc' =>
      have hp' := (hA.mem_iff _ _).1 (List.mem_of_getElem? hc')
      rw [hp] at hp'; cases hp'
      rw [ih h1']
      obtain ⟨g1, g2⟩ := List.getElem?_eq_some_iff.1 hc
      obtain ⟨g3, g4⟩ := List.getElem?_eq_some_iff.1 hc'
      rw [List.getElem_inj (hA.nodup p) |>.1 (g2.trans g4.symm)]

/-- A node of the document that is outside its body. -/
def Document.OutsideBody (D : Document) (n : Nat) : Prop :=
  n < D.arena.next ∧ ∀ b, D.body = some b → ¬ D.arena.Anc b n

theorem initSlots_fenced {D : Document} (h : D.Sound) : ∃ b, (initSlots D).2 = Arena.upd (fun _ => none) 0 (some b) ∧
    (initSlots D).1.root = D.root ∧ (initSlots D).1.arena.WF ∧ b < (initSlots D).1.arena.next ∧
    (initSlots D).1.arena.parent b = some D.root ∧
    ∀ n, D.OutsideBody n → Beyond (initSlots D).1.arena b n ∧
      (initSlots D).1.arena.parent n = D.arena.parent n ∧ (initSlots D).1.arena.data n = D.arena.data n ∧
      (n ≠ D.root → (initSlots D).1.arena.children n = D.arena.children n) := by
  have hw := h.arena.wf
  unfold initSlots Document.ensureBody
  cases hb : D.body with
  | some b =>
    have hm := (hw.mem_iff _ _).1 (Document.body_spec hb).1
    exact ⟨b, rfl, rfl, hw, (hw.lt_of_parent _ _ hm).1, hm, fun n hn =>
      ⟨⟨hn.1, hn.2 b hb⟩, rfl, rfl, fun _ => rfl⟩⟩
  | none =>
    have hpar := hw.addChild_parent D.root (Document.elem "body".toList)
    have hnx := Arena.addChild_next D.arena D.root (Document.elem "body".toList)
    have hw' := hw.addChild h.root_lt (Document.elem "body".toList)
    refine ⟨D.arena.next, rfl, rfl, hw', ?_, ?_, fun n hn => ⟨⟨?_, fun ha => ?_⟩, ?_, ?_, fun hr => ?_⟩⟩
    · show D.arena.next < (D.arena.addChild D.root _).1.next
      omega
    · show (D.arena.addChild D.root _).1.parent _ = _
      rw [hpar, if_pos rfl]
    · have := hn.1
      show n < (D.arena.addChild D.root _).1.next
      omega
    · -- the new body has no descendants
      have ha : (D.arena.addChild D.root (Document.elem "body".toList)).1.Anc D.arena.next n := ha
      have hne : D.arena.next ≠ n := by have := hn.1; omega
      have : ∀ n, (D.arena.addChild D.root (Document.elem "body".toList)).1.Anc D.arena.next n →
          n = D.arena.next := by
        intro n ha
        induction ha with
        | refl => rfl
        | @step n p hp _ ih =>
          subst ih
          rw [hpar] at hp
          split at hp
          · have := h.root_lt
            rw [← Option.some.inj hp] at this
            exact absurd this (Nat.lt_irrefl _)
          · exact absurd (hw.lt_of_parent _ _ hp).2 (Nat.lt_irrefl _)
      exact hne (this n ha).symm
    · show (D.arena.addChild D.root _).1.parent _ = _
      rw [hpar, if_neg (by have := hn.1; omega)]
    · show (D.arena.addChild D.root _).1.data _ = _
      rw [Arena.addChild_data, if_neg (by have := hn.1; omega)]
    · show (D.arena.addChild D.root _).1.children _ = _
      have := hn.1
      rw [hw.addChild_children]
      rw [if_neg hr]

/-- **C53.** Whatever patches are applied to a sound document, with or without an error: parent and child
links still agree, every node is reached from the root along one path only, so that what hangs below the root
is a tree, and the nodes outside the body keep their parents and data, and, but for the root, their children. -/
theorem C53_document_stays_a_tree (parse : Str → Document) {D : Document} (h : D.Sound) (ps : List Patch) :
    ∃ D' e, applyPatchesKeep parse D ps = (D', e) ∧ D'.root = D.root ∧ D'.doctype = D.doctype ∧
      (∀ c p, c ∈ D'.arena.children p ↔ D'.arena.parent c = some p) ∧
      (∀ p, (D'.arena.children p).Nodup) ∧
      (∀ n q q', Walk D'.arena D'.root q n → Walk D'.arena D'.root q' n → q = q') ∧
      ∀ n, D.OutsideBody n → D'.arena.parent n = D.arena.parent n ∧ D'.arena.data n = D.arena.data n ∧
        (n ≠ D.root → D'.arena.children n = D.arena.children n) := by
  have hw := h.arena.wf
  have hroot : ∀ p, D.arena.parent D.root = some p → ¬ D.arena.Anc D.root p :=
    fun p hp => not_anc_parent hw hp
  by_cases hps : ps.isEmpty = true
  · refine ⟨D, none, by rw [applyPatchesKeep, if_pos hps], rfl, rfl, hw.mem_iff, hw.nodup, ?_, fun n _ =>
      ⟨rfl, rfl, fun _ => rfl⟩⟩
    exact fun n q q' h1 h2 => h1.unique hw.linked hroot h2
  · obtain ⟨b, hsl, hr, hD0, hblt, hbp, hout⟩ := initSlots_fenced h
    have hbA : ¬ Beyond (initSlots D).1.arena b b := fun hb => hb.2 .refl
    have hf := (Fenced.refl (b := b) hD0).applyKeep hD0 parse ps (s := (initSlots D).2) (by
      intro k n hk
      rw [hsl] at hk
      simp only [Arena.upd_apply] at hk
      split at hk
      · cases hk; exact ⟨hblt, hbA⟩
      · cases hk)
    refine ⟨{ (initSlots D).1 with arena := (applyKeep parse (initSlots D).1.arena (initSlots D).2 ps).1 },
      (applyKeep parse (initSlots D).1.arena (initSlots D).2 ps).2, by rw [applyPatchesKeep, if_neg hps], hr, ?_,
      hf.linked.mem_iff, hf.linked.nodup, ?_, fun n hn => ?_⟩
    · show (initSlots D).1.doctype = D.doctype
      unfold initSlots Document.ensureBody
      cases D.body <;> rfl
    · intro n q q' h1 h2
      refine h1.unique hf.linked ?_ h2
      -- the nodes above the root are not touched
      show ∀ p, (applyKeep parse (initSlots D).1.arena (initSlots D).2 ps).1.parent (initSlots D).1.root = some p → _
      rw [hr]
      have hrb : Beyond (initSlots D).1.arena b D.root :=
        ⟨(hD0.lt_of_parent _ _ hbp).2, not_anc_parent hD0 hbp⟩
      intro p hp hanc
      rw [hf.parent _ hrb] at hp
      have key : ∀ n, (applyKeep parse (initSlots D).1.arena (initSlots D).2 ps).1.Anc D.root n →
          Beyond (initSlots D).1.arena b n → (initSlots D).1.arena.Anc D.root n := by
        intro n ha
        induction ha with
        | refl => exact fun _ => .refl
        | @step n m hm _ ih =>
          intro hb
          rw [hf.parent _ hb] at hm
          exact .step hm (ih ⟨(hD0.lt_of_parent _ _ hm).2, fun hb' => hb.2 (.step hm hb')⟩)
      exact not_anc_parent hD0 hp (key p hanc
        ⟨(hD0.lt_of_parent _ _ hp).2, fun hb => hrb.2 (.step hp hb)⟩)
    · obtain ⟨g1, g2, g3, g4⟩ := hout n hn
      refine ⟨(hf.parent n g1).trans g2, (hf.data n g1).trans g3, fun hne => ?_⟩
      refine (hf.kids n g1 ?_).trans (g4 hne)
      rw [hbp]
      exact fun e => hne (Option.some.inj e).symm

/-- **C53**, in the browser: whatever patches the client applies to the element `eb` of a page, the page stays
a well-formed tree, the nodes outside `eb` keep their parents and data, and, but for the parent of `eb`, their
children. -/
theorem C53_page_stays_a_tree (dom : WebDom) {E E' : Arena NodeData} (hE : E.WF) {eb : Nat} (heb : eb < E.next)
    {ps : List Patch} (e : dom.applyPatches eb E ps = .ok E') :
    E'.WF ∧ ∀ n, n < E.next → ¬ E.Anc eb n → E'.parent n = E.parent n ∧ E'.data n = E.data n ∧
      (E.parent eb ≠ some n → E'.children n = E.children n) := by
  unfold WebDom.applyPatches at e
  obtain ⟨⟨A, s⟩, h1, e⟩ := res_bind e
  cases e
  have h := Safe.applyLoop (b := eb) dom hE ps ⟨hE, .refl hE⟩ ⟨heb, fun h => h.2 .refl⟩
    (fun k n hk => by cases hk) h1
  exact ⟨h.wf, fun n hn hb => ⟨h.fenced.parent n ⟨hn, hb⟩, h.fenced.data n ⟨hn, hb⟩,
    h.fenced.kids n ⟨hn, hb⟩⟩⟩

/-- A page and a patch list that displaces a `div` and then moves it below itself. -/
def loopPage : List Html := [ex "div" [] [ex "p" [] [ex "b" [] []]]]
/-- See `loopPage`. -/
def loopPatches : List Patch := [.insertText [0, 0] ['t'] (some 1), .move [1] [1, 0, 0] none]

/-- The hypothesis of C53 holds for a page, and the conclusion says something about its head. -/
example : (Document.ofForest loopPage).Sound ∧ (Document.ofForest loopPage).OutsideBody 1 := by
  have h := ofForest_valid loopPage (by decide +kernel)
  refine ⟨⟨h, by decide +kernel⟩, by decide +kernel, fun b hb ha => ?_⟩
  have e : (Document.ofForest loopPage).body = some 2 := by decide +kernel
  rw [e] at hb; cases hb
  have := (h.wf.mem_descendants _ _).2 ha
  revert this
  decide +kernel

/-- A patch list that the client applies to a page. -/
example : (Document.ofForest loopPage).arena.WF ∧ 2 < (Document.ofForest loopPage).arena.next ∧
    (match WebDom.lenient.applyPatches 2 (Document.ofForest loopPage).arena
        [.insertText [0, 0] ['t'] (some 1), .move [1] [0, 3] none] with
      | .ok E => decide ((E.children 2).length = 4)
      | .error _ => false) = true :=
  ⟨(ofForest_valid loopPage (by decide +kernel)).wf, by decide +kernel, by decide +kernel⟩

/-- C53 is about what hangs below the root: patches may close a loop of nodes that do not belong
to the page any more. (By its documentation indextree then loops forever when a node is appended to them.) -/
theorem C53_loop_outside_the_page : ∃ (cs : List Html) (ps : List Patch) (n p : Nat),
    (match applyPatches (fun _ => .ofForest []) (.ofForest cs) ps with
      | .ok D => decide (D.arena.parent n = some p ∧ D.arena.parent p = some n)
      | .error _ => false) = true :=
  ⟨loopPage, loopPatches, 3, 4, by decide +kernel⟩

/-- **C26** is violated by inserts below a text: they succeed, and the inserted content does not show. -/
theorem C26_violated_insert_below_text : ∃ (cs : List Html) (P : Patch),
    (match applyPatches (fun _ => .ofForest []) (.ofForest cs) [P] with
      | .ok D => decide (D.toBodyHtml = (Document.ofForest cs).toBodyHtml ∧
          D.arena.children 3 = [4])
      | .error _ => false) = true ∧
    (match ((Document.ofForest cs).arena.data 3).kind with
      | .text _ => true
      | _ => false) = true ∧ P.insertionPoint = some [0, 0, 0] :=
  ⟨[.text ['a']], .insertText [0, 0, 0] ['b'] none, by decide +kernel, by decide +kernel, rfl⟩

end Hotmeal
