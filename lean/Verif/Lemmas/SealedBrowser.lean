import Verif.Lemmas.Sealed
import Verif.Model.WebDom

set_option autoImplicit false
set_option linter.unusedSectionVars false

/-!
# Patches stay inside: the browser client

As `Lemmas/Sealed.lean`, for the patch application in the page. Slot 0 is always the patched element there.
-/

namespace Hotmeal
namespace Sealed

variable {A0 A A' : Arena NodeData} {b : Nat} {F : Nat → Prop}

theorem w_appendChild (h : Sealed A0 b F A) {p c : Nat} (hp : ¬ F p) (hc : Inside b F c)
    (e : Wasm.appendChild A p c = .ok A') : Sealed A0 b F A' := by
  unfold Wasm.appendChild at e
  split at e
  · cases e
  · cases e; exact h.appendRaw hp hc

theorem w_replaceChild (h : Sealed A0 b F A) {p new occ : Nat} (hn : Inside b F new) (ho : Inside b F occ)
    (e : Wasm.replaceChild A p new occ = .ok A') : Sealed A0 b F A' := by
  unfold Wasm.replaceChild at e
  split at e
  · cases e
  · split at e
    · cases e; exact h
    · obtain ⟨A2, h1, e⟩ := res_bind e
      cases e
      exact (h.insertBefore ho hn h1).detach ho

theorem w_replaceByEmpty (h : Sealed A0 b F A) {n : Nat} (hn : Inside b F n)
    (e : Wasm.replaceByEmpty A n = .ok A') : Sealed A0 b F A' := by
  unfold Wasm.replaceByEmpty at e
  split at e
  · cases e; exact h
  · obtain ⟨h1, h2⟩ := h.newNode Document.emptyText
    exact h1.w_replaceChild h2 hn e

theorem w_insertAtPosition (h : Sealed A0 b F A) {slots slots' : Slots} (hs : SlotsOk b F (Wasm.view b slots))
    {p n pos : Nat} (hp : ¬ F p) (hn : Inside b F n) {slot : Option Nat}
    (e : Wasm.insertAtPosition A slots p n pos slot = .ok (A', slots')) :
    Sealed A0 b F A' ∧ SlotsOk b F (Wasm.view b slots') := by
  unfold Wasm.insertAtPosition at e
  split at e
  · next occ hocc =>
    obtain ⟨A2, h1, e⟩ := res_bind e
    have ho := h.down p occ hp (List.mem_of_getElem? hocc)
    cases e
    refine ⟨h.w_replaceChild hn ho h1, by simp [Wasm.view], fun s r h0 hr => ?_⟩
    cases slot with
    | none => exact hs.rest s r h0 hr
    | some k =>
      simp only [Wasm.view, Arena.upd_apply, if_neg h0] at hr
      split at hr
      · cases hr; exact ho
      · exact hs.rest s r h0 (by simp only [Wasm.view, Arena.upd_apply, if_neg h0]; exact hr)
  · obtain ⟨A2, h1, e⟩ := res_bind e
    cases e
    exact ⟨(h.fillGaps hp _).w_appendChild hp hn h1, hs⟩

theorem w_setTextContent (h : Sealed A0 b F A) {n : Nat} (hn : ¬ F n) (t : Str) :
    Sealed A0 b F (Wasm.setTextContent A n t) := by
  unfold Wasm.setTextContent
  split
  · next d => exact h.setData hn _ (by rw [d]; rfl)
  · next d => exact h.setData hn _ (by rw [d]; rfl)
  · have h1 := h.detachAll (l := A.children n) fun m hm => h.down n m hn hm
    simp only
    split
    · exact h1
    · obtain ⟨h2, h3⟩ := h1.newNode ⟨.text t, .html⟩
      exact h2.appendRaw hn h3
  · exact h

mutual
theorem w_createInsertContent (dom : WebDom) : ∀ (c : InsertContent) {A A' : Arena NodeData} {n : Nat},
    Sealed A0 b F A → dom.createInsertContent A c = .ok (A', n) → Sealed A0 b F A' ∧ Inside b F n
  | .element tag attrs cs, A, A', n, h, e => by
    unfold WebDom.createInsertContent at e
    split at e
    · next k _ =>
      obtain ⟨h1, h2⟩ := h.newNode ⟨k, .html⟩
      obtain ⟨A2, h3, e⟩ := res_bind e
      cases e
      exact ⟨w_appendContents dom cs h1 h2.1 h3, h2⟩
    · unfold WebDom.viaHtml at e
      simp only at e
      split at e
      · cases e
      · exact cloneSubtree _ _ h e
  | .text t, A, A', n, h, e => by
    unfold WebDom.createInsertContent at e
    cases e
    exact h.newNode ⟨.text t, .html⟩
  | .comment t, A, A', n, h, e => by
    unfold WebDom.createInsertContent at e
    cases e
    exact h.newNode ⟨.comment t, .html⟩
theorem w_appendContents (dom : WebDom) : ∀ (cs : List InsertContent) {A A' : Arena NodeData} {p : Nat},
    Sealed A0 b F A → ¬ F p → dom.appendContents A p cs = .ok A' → Sealed A0 b F A'
  | [], A, A', p, h, _, e => by
    unfold WebDom.appendContents at e
    cases e; exact h
  | c :: cs, A, A', p, h, hp, e => by
    unfold WebDom.appendContents at e
    obtain ⟨⟨A2, m⟩, h1, e⟩ := res_bind e
    obtain ⟨A3, h2, e⟩ := res_bind e
    obtain ⟨h3, h4⟩ := w_createInsertContent dom c h h1
    exact w_appendContents dom cs (h3.w_appendChild hp h4 h2) hp e
end

theorem w_insertParent (h : Sealed A0 b F A) {s : Slots} (hs : SlotsOk b F (Wasm.view b s)) {q : Path}
    {p pos : Nat} (e : Wasm.insertParent b A s q = .ok (p, pos)) : ¬ F p := by
  unfold Wasm.insertParent at e
  split at e
  · cases e
  · split at e
    · cases e
    · obtain ⟨p1, h1, e⟩ := res_bind e
      obtain ⟨p2, h2, e⟩ := res_bind e
      cases e
      unfold Wasm.asElement at h2
      split at h2
      · cases h2; exact (h.navigate_inside hs h1).1
      · cases h2

theorem w_slots_none {s : Slots} (hs : SlotsOk b F (Wasm.view b s)) (k : Nat) :
    SlotsOk b F (Wasm.view b (Arena.upd s k none)) := by
  refine ⟨by simp [Wasm.view], fun j r h0 hr => ?_⟩
  simp only [Wasm.view, Arena.upd_apply, if_neg h0] at hr
  split at hr
  · cases hr
  · exact hs.rest j r h0 (by simp only [Wasm.view, Arena.upd_apply, if_neg h0]; exact hr)

/-- Any patch that does not take the patched element away. -/
theorem w_applyPatch (dom : WebDom) (h : Sealed A0 b F A) {s s' : Slots} (hs : SlotsOk b F (Wasm.view b s))
    {P : Patch} (hP : P.SparesRoot) (e : dom.applyPatch b A s P = .ok (A', s')) :
    Sealed A0 b F A' ∧ SlotsOk b F (Wasm.view b s') := by
  cases P with
  | insertElement q tag attrs cs slot =>
    obtain ⟨⟨p, pos⟩, h1, e⟩ := res_bind e
    obtain ⟨⟨A2, n⟩, h2, e⟩ := res_bind e
    obtain ⟨h3, h4⟩ := w_createInsertContent dom _ h h2
    exact h3.w_insertAtPosition hs (h.w_insertParent hs h1) h4 e
  | insertText q t slot =>
    obtain ⟨⟨p, pos⟩, h1, e⟩ := res_bind e
    obtain ⟨h3, h4⟩ := h.newNode ⟨.text t, .html⟩
    exact h3.w_insertAtPosition hs (h.w_insertParent hs h1) h4 e
  | insertComment q t slot =>
    obtain ⟨⟨p, pos⟩, h1, e⟩ := res_bind e
    obtain ⟨h3, h4⟩ := h.newNode ⟨.comment t, .html⟩
    exact h3.w_insertAtPosition hs (h.w_insertParent hs h1) h4 e
  | remove q =>
    unfold WebDom.applyPatch Wasm.applyPatch at e
    simp only at e
    split at e
    · cases e
    · next k =>
      split at e
      · next h0 => subst h0; exact absurd rfl hP
      · cases e; exact ⟨h, w_slots_none hs _⟩
    · obtain ⟨n, h1, e⟩ := res_bind e
      obtain ⟨A2, h2, e⟩ := res_bind e
      cases e
      obtain ⟨g1, g2⟩ := h.navigate_inside hs h1
      exact ⟨h.w_replaceByEmpty ⟨g1, g2 hP⟩ h2, hs⟩
  | setText q t =>
    obtain ⟨n, h1, e⟩ := res_bind e
    cases e
    exact ⟨h.w_setTextContent (h.navigate_inside hs h1).1 t, hs⟩
  | setAttribute q k v =>
    obtain ⟨n, h1, e⟩ := res_bind e
    have hn := h.navigate_inside hs h1
    split at e
    · next d =>
      obtain ⟨a, _, e⟩ := res_bind e
      cases e; exact ⟨h.setData hn.1 _ (by rw [d]; rfl), hs⟩
    · cases e
  | removeAttribute q k =>
    obtain ⟨n, h1, e⟩ := res_bind e
    have hn := h.navigate_inside hs h1
    split at e
    · next d => cases e; exact ⟨h.setData hn.1 _ (by rw [d]; rfl), hs⟩
    · cases e
  | move q to slot =>
    have h2 : ∃ A2 s2 n, Sealed A0 b F A2 ∧ SlotsOk b F (Wasm.view b s2) ∧ Inside b F n ∧
        (do let (p, pos) ← Wasm.insertParent b A2 s2 to
            Wasm.insertAtPosition A2 s2 p n pos slot : Res _) = .ok (A', s') := by
      unfold WebDom.applyPatch Wasm.applyPatch at e
      simp only at e
      split at e
      · next k =>
        split at e
        · cases e
        · next n hn =>
          have h0 : k ≠ 0 := by rintro rfl; exact hP.1 rfl
          exact ⟨A, _, n, h, w_slots_none hs _, hs.rest k n h0 (by
            simp only [Wasm.view, Arena.upd_apply, if_neg h0]; exact hn), e⟩
      · obtain ⟨n, h1, e⟩ := res_bind e
        obtain ⟨A2, h2, e⟩ := res_bind e
        obtain ⟨g1, g2⟩ := h.navigate_inside hs h1
        exact ⟨A2, s, n, h.w_replaceByEmpty ⟨g1, g2 hP.1⟩ h2, hs, ⟨g1, g2 hP.1⟩, e⟩
    obtain ⟨A2, s2, n, g1, g2, g3, e⟩ := h2
    obtain ⟨⟨p, pos⟩, h1, e⟩ := res_bind e
    exact g1.w_insertAtPosition g2 (g1.w_insertParent g2 h1) g3 e
  | updateProps q changes =>
    obtain ⟨n, h1, e⟩ := res_bind e
    have hn := (h.navigate_inside hs h1).1
    have h2 : ∃ A2, Sealed A0 b F A2 ∧ (match A2.data n with
        | ⟨.element tag attrs, ns⟩ => do
          let attrs ← dom.updateAttrs ns attrs changes
          .ok (A2.setData n ⟨.element tag attrs, ns⟩, s)
        | _ => .ok (A2, s) : Res _) = .ok (A', s') := by
      refine ⟨_, ?_, e⟩
      split
      · exact h.w_setTextContent hn _
      · exact h
    obtain ⟨A2, g1, e⟩ := h2
    split at e
    · next d =>
      obtain ⟨a, _, e⟩ := res_bind e
      cases e; exact ⟨g1.setData hn _ (by rw [d]; rfl), hs⟩
    · cases e; exact ⟨g1, hs⟩
  | opaqueChanged q content =>
    obtain ⟨n, h1, e⟩ := res_bind e
    obtain ⟨_, _, e⟩ := res_bind e
    cases e
    exact ⟨h, hs⟩

theorem w_applyLoop (dom : WebDom) : ∀ (ps : List Patch) {A A' : Arena NodeData} {s s' : Slots},
    Sealed A0 b F A → SlotsOk b F (Wasm.view b s) → (∀ P ∈ ps, P.SparesRoot) →
    dom.applyLoop b A s ps = .ok (A', s') → Sealed A0 b F A'
  | [], _, _, _, _, h, _, _, e => by cases e; exact h
  | P :: ps, A, A', s, s', h, hs, hP, e => by
    unfold WebDom.applyLoop at e
    obtain ⟨⟨A2, s2⟩, h1, e⟩ := res_bind e
    obtain ⟨g1, g2⟩ := h.w_applyPatch dom hs (hP P (by simp)) h1
    exact w_applyLoop dom ps g1 g2 (fun P h => hP P (by simp [h])) e

end Sealed
end Hotmeal
