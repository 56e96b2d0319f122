import Verif.Lemmas.Links
import Verif.Model.WebDom

set_option autoImplicit false
set_option linter.unusedSectionVars false

/-!
# The page under arbitrary patches

The DOM checks every insertion for cycles, so the page stays well-formed as a whole, and nothing outside the
patched element is touched.
-/

namespace Hotmeal

variable {D0 A : Arena NodeData} {b : Nat}

/-- Well-formed, and changed within the subtree of `b` only. -/
structure Safe (D0 : Arena NodeData) (b : Nat) (A : Arena NodeData) : Prop where
  wf : A.WF
  fenced : Fenced D0 b A

namespace Safe

theorem newNode (h : Safe D0 b A) (d : NodeData) : Safe D0 b (A.newNode d).1 ∧
    Within D0 b (A.newNode d).1 A.next ∧ ∀ n, Within D0 b A n → Within D0 b (A.newNode d).1 n := by
  obtain ⟨h1, h2, _, h4⟩ := h.fenced.newNode d
  exact ⟨⟨h.wf.newNode d, h1⟩, h2, h4⟩

theorem setData (h : Safe D0 b A) {n : Nat} (hn : ¬ Beyond D0 b n) (d : NodeData) :
    Safe D0 b (A.setData n d) := ⟨h.wf.setData n d, h.fenced.setData hn d⟩

theorem detach (hD : D0.WF) (h : Safe D0 b A) {n : Nat} (hn : ¬ Beyond D0 b n) : Safe D0 b (A.detach n) :=
  ⟨h.wf.detach n, h.fenced.detach hD hn⟩

theorem appendRaw (hD : D0.WF) (h : Safe D0 b A) {p c : Nat} (hp : Within D0 b A p) (hc : Within D0 b A c)
    (hn : A.isAncestorOrSelf c A.next p = false) : Safe D0 b (A.appendRaw p c) :=
  ⟨h.wf.appendRaw hp.1 hc.1 (fun ha => by
    rw [(h.wf.isAncestorOrSelf_iff c p).2 ha] at hn; cases hn), h.fenced.appendRaw hD hp hc⟩

theorem appendRaw_next (A : Arena NodeData) (p c : Nat) : (A.appendRaw p c).next = A.next := by
  simp [Arena.appendRaw, Arena.detach_next]

theorem append (hD : D0.WF) (h : Safe D0 b A) {p c : Nat} (hp : Within D0 b A p) (hc : Within D0 b A c)
    {A' : Arena NodeData} (e : A.append p c = .ok A') : Safe D0 b A' ∧ A'.next = A.next := by
  unfold Arena.append at e
  split at e
  · cases e
  · next hn => cases e; exact ⟨h.appendRaw hD hp hc (Bool.eq_false_iff.2 hn), appendRaw_next _ _ _⟩

theorem appendChild (hD : D0.WF) (h : Safe D0 b A) {p c : Nat} (hp : Within D0 b A p) (hc : Within D0 b A c)
    {A' : Arena NodeData} (e : Wasm.appendChild A p c = .ok A') : Safe D0 b A' ∧ A'.next = A.next := by
  unfold Wasm.appendChild at e
  split at e
  · cases e
  · next hn => cases e; exact ⟨h.appendRaw hD hp hc (Bool.eq_false_iff.2 hn), appendRaw_next _ _ _⟩

theorem addChild (hD : D0.WF) (h : Safe D0 b A) {p : Nat} (hp : Within D0 b A p) (d : NodeData) :
    Safe D0 b (A.addChild p d).1 ∧ (A.addChild p d).1.next = A.next + 1 :=
  ⟨⟨h.wf.addChild hp.1 d, (h.fenced.addChild hD hp d).1⟩, Arena.addChild_next _ _ _⟩

theorem fillGaps (hD : D0.WF) {p : Nat} : ∀ (k : Nat) {A : Arena NodeData}, Safe D0 b A → Within D0 b A p →
    Safe D0 b (Hotmeal.fillGaps A p k) ∧ A.next ≤ (Hotmeal.fillGaps A p k).next
  | 0, _, h, _ => ⟨h, Nat.le_refl _⟩
  | k + 1, A, h, hp => by
    obtain ⟨h1, h2⟩ := h.addChild hD hp Document.emptyText
    obtain ⟨h3, h4⟩ := fillGaps hD k h1 ⟨by have := hp.1; omega, hp.2⟩
    exact ⟨h3, by unfold Hotmeal.fillGaps; omega⟩

theorem replaceChild (hD : D0.WF) (h : Safe D0 b A) {p new occ : Nat} (hn : Within D0 b A new)
    (ho : Within D0 b A occ) (hp : A.parent occ = some p) {A' : Arena NodeData}
    (e : Wasm.replaceChild A p new occ = .ok A') : Safe D0 b A' ∧ A'.next = A.next := by
  unfold Wasm.replaceChild at e
  split at e
  · cases e
  · next ha =>
    split at e
    · cases e; exact ⟨h, rfl⟩
    · next hne =>
      obtain ⟨A2, h1, e⟩ := res_bind e
      cases e
      have hanc : ¬ A.Anc new occ := by
        intro hc
        rcases hc.cases' with e | ⟨q, hq, hq'⟩
        · exact hne e
        · rw [hp] at hq; cases hq
          exact ha ((h.wf.isAncestorOrSelf_iff _ _).2 hq')
      obtain ⟨h2, h3⟩ := h.fenced.insertBefore hD ho.2 hn h1
      have h4 : Safe D0 b A2 := ⟨h.wf.insertBefore hn.1 hanc h1, h2⟩
      exact ⟨h4.detach hD ho.2, by rw [Arena.detach_next, h3]⟩

theorem replaceByEmpty (hD : D0.WF) (h : Safe D0 b A) {n : Nat} (hn : Within D0 b A n) {A' : Arena NodeData}
    (e : Wasm.replaceByEmpty A n = .ok A') : Safe D0 b A' ∧ A.next ≤ A'.next := by
  unfold Wasm.replaceByEmpty at e
  split at e
  · cases e; exact ⟨h, Nat.le_refl _⟩
  · next p hp =>
    obtain ⟨h1, h2, h3⟩ := h.newNode Document.emptyText
    have hp' : (A.newNode Document.emptyText).1.parent n = some p := by
      rw [h.wf.newNode_parent]; exact hp
    obtain ⟨h4, h5⟩ := h1.replaceChild hD h2 (h3 n hn) hp' e
    exact ⟨h4, by rw [h5]; simp⟩

theorem insertAtPosition (hD : D0.WF) (h : Safe D0 b A) {s : Slots} (hs : SlotsWithin D0 b A s) {p n pos : Nat}
    (hp : Within D0 b A p) (hn : Within D0 b A n) {slot : Option Nat} {A' : Arena NodeData} {s' : Slots}
    (e : Wasm.insertAtPosition A s p n pos slot = .ok (A', s')) :
    Safe D0 b A' ∧ A.next ≤ A'.next ∧ SlotsWithin D0 b A' s' := by
  unfold Wasm.insertAtPosition at e
  split at e
  · next occ hocc =>
    obtain ⟨A2, h1, e⟩ := res_bind e
    have hm := List.mem_of_getElem? hocc
    have hw := h.fenced.child hp.2 hm
    obtain ⟨h2, h3⟩ := h.replaceChild hD hn hw ((h.wf.mem_iff _ _).1 hm) h1
    cases e
    refine ⟨h2, by omega, ?_⟩
    refine Fenced.slotsWithin_mono (A := A) ?_ (by omega)
    cases slot with
    | none => exact hs
    | some k =>
      intro j m hj
      simp only [Arena.upd_apply] at hj
      split at hj
      · cases hj; exact hw
      · exact hs j m hj
  · obtain ⟨A2, h1, e⟩ := res_bind e
    obtain ⟨h2, h3⟩ := fillGaps hD (pos - (A.children p).length) h hp
    obtain ⟨h4, h5⟩ := h2.appendChild hD ⟨Nat.lt_of_lt_of_le hp.1 h3, hp.2⟩
      ⟨Nat.lt_of_lt_of_le hn.1 h3, hn.2⟩ h1
    cases e
    exact ⟨h4, by omega, Fenced.slotsWithin_mono hs (by omega)⟩

theorem detachAll (hD : D0.WF) : ∀ (l : List Nat) {A : Arena NodeData}, Safe D0 b A →
    (∀ n ∈ l, ¬ Beyond D0 b n) → Safe D0 b (Hotmeal.detachAll A l) ∧ (Hotmeal.detachAll A l).next = A.next
  | [], _, h, _ => ⟨h, rfl⟩
  | n :: l, A, h, hl => by
    obtain ⟨h1, h2⟩ := detachAll hD l (h.detach hD (hl n (by simp))) fun m hm => hl m (by simp [hm])
    refine ⟨h1, ?_⟩
    show (Hotmeal.detachAll (A.detach n) l).next = _
    rw [h2, Arena.detach_next]

theorem setTextContent (hD : D0.WF) (h : Safe D0 b A) {n : Nat} (hn : Within D0 b A n) (t : Str) :
    Safe D0 b (Wasm.setTextContent A n t) ∧ A.next ≤ (Wasm.setTextContent A n t).next := by
  unfold Wasm.setTextContent
  split
  · exact ⟨h.setData hn.2 _, Nat.le_refl _⟩
  · exact ⟨h.setData hn.2 _, Nat.le_refl _⟩
  · obtain ⟨h1, h2⟩ := detachAll hD (A.children n) h fun m hm => (h.fenced.child hn.2 hm).2
    simp only
    split
    · exact ⟨h1, by omega⟩
    · obtain ⟨h3, h4⟩ := h1.addChild hD ⟨by rw [h2]; exact hn.1, hn.2⟩ ⟨.text t, .html⟩
      exact ⟨h3, by omega⟩
  · exact ⟨h, Nat.le_refl _⟩

/-- What a copying function does. -/
def Copies (D0 : Arena NodeData) (b : Nat) (r : Arena NodeData → Res (Arena NodeData × Nat)) : Prop :=
  ∀ A, Safe D0 b A → ∀ A' n, r A = .ok (A', n) → Safe D0 b A' ∧ A.next ≤ A'.next ∧ Within D0 b A' n

theorem copyAll (hD : D0.WF) {m : Nat} : ∀ (rs : List (Arena NodeData → Res (Arena NodeData × Nat))),
    (∀ r ∈ rs, Copies D0 b r) → ∀ A, Safe D0 b A → Within D0 b A m → ∀ A',
    rs.foldlM (fun A r => do
      let (A, c) ← r A
      A.append m c) A = Except.ok (ε := Err) A' → Safe D0 b A' ∧ A.next ≤ A'.next
  | [], _, A, h, _, A', e => by cases e; exact ⟨h, Nat.le_refl _⟩
  | r :: rs, hr, A, h, hm, A', e => by
    rw [List.foldlM_cons] at e
    obtain ⟨A2, h1, e⟩ := res_bind e
    obtain ⟨⟨A3, c⟩, h2, h1⟩ := res_bind h1
    obtain ⟨h3, h4, h5⟩ := hr r (by simp) A h A3 c h2
    have hm3 : Within D0 b A3 m := ⟨Nat.lt_of_lt_of_le hm.1 h4, hm.2⟩
    obtain ⟨h6, h7⟩ := h3.append hD hm3 h5 h1
    obtain ⟨h8, h9⟩ := copyAll hD rs (fun r h => hr r (by simp [h])) A2 h6 ⟨by rw [h7]; exact hm3.1, hm.2⟩ A' e
    exact ⟨h8, by omega⟩

theorem cloneSubtree (hD : D0.WF) (src : Arena NodeData) (n : Nat) :
    Copies D0 b (Hotmeal.cloneSubtree src n) := by
  unfold Hotmeal.cloneSubtree Arena.fold
  generalize src.next = k
  have step : ∀ (n : Nat) (rs : List (Arena NodeData → Res (Arena NodeData × Nat))),
      (∀ r ∈ rs, Copies D0 b r) → Copies D0 b (fun A =>
        let (A, m) := A.newNode (src.data n)
        do
          let A ← rs.foldlM (fun A r => do
            let (A, c) ← r A
            A.append m c) A
          .ok (A, m)) := by
    intro n rs hrs A h A' m e
    obtain ⟨h1, h2, _⟩ := h.newNode (src.data n)
    obtain ⟨A2, h3, e⟩ := res_bind e
    cases e
    obtain ⟨h4, h5⟩ := copyAll hD rs hrs _ h1 h2 A' h3
    have : A.next + 1 ≤ A'.next := h5
    exact ⟨h4, by omega, by show A.next < A'.next; omega, h2.2⟩
  induction k generalizing n with
  | zero => exact step n [] (by simp)
  | succ k ih =>
    refine step n _ fun r hr => ?_
    obtain ⟨c, _, rfl⟩ := List.mem_map.1 hr
    exact ih c

mutual
theorem createInsertContent (dom : WebDom) (hD : D0.WF) : ∀ (c : InsertContent) {A : Arena NodeData},
    Safe D0 b A → ∀ {A' : Arena NodeData} {n : Nat}, dom.createInsertContent A c = .ok (A', n) →
    Safe D0 b A' ∧ A.next ≤ A'.next ∧ Within D0 b A' n
  | .element tag attrs cs, A, h, A', n, e => by
    unfold WebDom.createInsertContent at e
    split at e
    · next k _ =>
      obtain ⟨h1, h2, _⟩ := h.newNode ⟨k, .html⟩
      obtain ⟨A2, h3, e⟩ := res_bind e
      cases e
      obtain ⟨h4, h5⟩ := appendContents dom hD cs h1 h2 h3
      have : A.next + 1 ≤ A'.next := h5
      exact ⟨h4, by omega, by show A.next < A'.next; omega, h2.2⟩
    · unfold WebDom.viaHtml at e
      simp only at e
      split at e
      · cases e
      · exact cloneSubtree hD _ _ A h A' n e
  | .text t, A, h, A', n, e => by
    unfold WebDom.createInsertContent at e
    cases e
    obtain ⟨h1, h2, _⟩ := h.newNode ⟨.text t, .html⟩
    exact ⟨h1, by simp, h2⟩
  | .comment t, A, h, A', n, e => by
    unfold WebDom.createInsertContent at e
    cases e
    obtain ⟨h1, h2, _⟩ := h.newNode ⟨.comment t, .html⟩
    exact ⟨h1, by simp, h2⟩
theorem appendContents (dom : WebDom) (hD : D0.WF) : ∀ (cs : List InsertContent) {A : Arena NodeData},
    Safe D0 b A → ∀ {p : Nat}, Within D0 b A p → ∀ {A' : Arena NodeData},
    dom.appendContents A p cs = .ok A' → Safe D0 b A' ∧ A.next ≤ A'.next
  | [], A, h, p, _, A', e => by
    unfold WebDom.appendContents at e
    cases e; exact ⟨h, Nat.le_refl _⟩
  | c :: cs, A, h, p, hp, A', e => by
    unfold WebDom.appendContents at e
    obtain ⟨⟨A2, m⟩, h1, e⟩ := res_bind e
    obtain ⟨A3, h2, e⟩ := res_bind e
    obtain ⟨h3, h4, h5⟩ := createInsertContent dom hD c h h1
    have hp2 : Within D0 b A2 p := ⟨Nat.lt_of_lt_of_le hp.1 h4, hp.2⟩
    obtain ⟨h6, h7⟩ := h3.appendChild hD hp2 h5 h2
    obtain ⟨h8, h9⟩ := appendContents dom hD cs h6 ⟨by rw [h7]; exact hp2.1, hp.2⟩ e
    exact ⟨h8, by omega⟩
end

theorem findNode (h : Safe D0 b A) (hb : Within D0 b A b) {s : Slots} (hs : SlotsWithin D0 b A s) {q : Path}
    {n : Nat} (e : Wasm.findNode b A s q = .ok n) : Within D0 b A n := by
  refine h.fenced.navigate (s := Wasm.view b s) ?_ e
  intro k m hk
  unfold Wasm.view at hk
  rw [Arena.upd_apply] at hk
  split at hk
  · cases hk; exact hb
  · exact hs k m hk

theorem insertParent (h : Safe D0 b A) (hb : Within D0 b A b) {s : Slots} (hs : SlotsWithin D0 b A s) {q : Path}
    {p pos : Nat} (e : Wasm.insertParent b A s q = .ok (p, pos)) : Within D0 b A p := by
  unfold Wasm.insertParent at e
  split at e
  · cases e
  · split at e
    · cases e
    · obtain ⟨p1, h1, e⟩ := res_bind e
      obtain ⟨p2, h2, e⟩ := res_bind e
      cases e
      unfold Wasm.asElement at h2
      split at h2
      · cases h2; exact h.findNode hb hs h1
      · cases h2

theorem slots_none {s : Slots} (hs : SlotsWithin D0 b A s) (k : Nat) :
    SlotsWithin D0 b A (Arena.upd s k none) := by
  intro j n hj
  rw [Arena.upd_apply] at hj
  split at hj
  · cases hj
  · exact hs j n hj

/-- **The step**: any patch. -/
theorem applyPatch (dom : WebDom) (hD : D0.WF) (h : Safe D0 b A) (hb : Within D0 b A b) {s : Slots}
    (hs : SlotsWithin D0 b A s) {P : Patch} {A' : Arena NodeData} {s' : Slots}
    (e : dom.applyPatch b A s P = .ok (A', s')) :
    Safe D0 b A' ∧ A.next ≤ A'.next ∧ SlotsWithin D0 b A' s' := by
  have mono : ∀ {A2 : Arena NodeData} {n : Nat}, A.next ≤ A2.next → Within D0 b A n → Within D0 b A2 n :=
    fun hle hn => ⟨Nat.lt_of_lt_of_le hn.1 hle, hn.2⟩
  cases P with
  | insertElement q tag attrs cs slot =>
    obtain ⟨⟨p, pos⟩, h1, e⟩ := res_bind e
    obtain ⟨⟨A2, n⟩, h2, e⟩ := res_bind e
    obtain ⟨h3, h4, h5⟩ := createInsertContent dom hD _ h h2
    obtain ⟨h6, h7, h8⟩ := h3.insertAtPosition hD (Fenced.slotsWithin_mono hs h4)
      (mono h4 (h.insertParent hb hs h1)) h5 e
    exact ⟨h6, by omega, h8⟩
  | insertText q t slot =>
    obtain ⟨⟨p, pos⟩, h1, e⟩ := res_bind e
    obtain ⟨h3, h4, _⟩ := h.newNode ⟨.text t, .html⟩
    obtain ⟨h6, h7, h8⟩ := h3.insertAtPosition hD (Fenced.slotsWithin_mono hs (by simp))
      (mono (by simp) (h.insertParent hb hs h1)) h4 e
    exact ⟨h6, by simp at h7; omega, h8⟩
  | insertComment q t slot =>
    obtain ⟨⟨p, pos⟩, h1, e⟩ := res_bind e
    obtain ⟨h3, h4, _⟩ := h.newNode ⟨.comment t, .html⟩
    obtain ⟨h6, h7, h8⟩ := h3.insertAtPosition hD (Fenced.slotsWithin_mono hs (by simp))
      (mono (by simp) (h.insertParent hb hs h1)) h4 e
    exact ⟨h6, by simp at h7; omega, h8⟩
  | remove q =>
    unfold WebDom.applyPatch Wasm.applyPatch at e
    simp only at e
    split at e
    · cases e
    · split at e
      · obtain ⟨A2, h2, e⟩ := res_bind e
        cases e
        obtain ⟨h3, h4⟩ := h.replaceByEmpty hD hb h2
        exact ⟨h3, h4, Fenced.slotsWithin_mono hs h4⟩
      · cases e; exact ⟨h, Nat.le_refl _, slots_none hs _⟩
    · obtain ⟨n, h1, e⟩ := res_bind e
      obtain ⟨A2, h2, e⟩ := res_bind e
      cases e
      obtain ⟨h3, h4⟩ := h.replaceByEmpty hD (h.findNode hb hs h1) h2
      exact ⟨h3, h4, Fenced.slotsWithin_mono hs h4⟩
  | setText q t =>
    obtain ⟨n, h1, e⟩ := res_bind e
    cases e
    obtain ⟨h2, h3⟩ := h.setTextContent hD (h.findNode hb hs h1) t
    exact ⟨h2, h3, Fenced.slotsWithin_mono hs h3⟩
  | setAttribute q k v =>
    obtain ⟨n, h1, e⟩ := res_bind e
    have hn := h.findNode hb hs h1
    split at e
    · obtain ⟨a, _, e⟩ := res_bind e
      cases e; exact ⟨h.setData hn.2 _, Nat.le_refl _, hs⟩
    · cases e
  | removeAttribute q k =>
    obtain ⟨n, h1, e⟩ := res_bind e
    have hn := h.findNode hb hs h1
    split at e
    · cases e; exact ⟨h.setData hn.2 _, Nat.le_refl _, hs⟩
    · cases e
  | move q to slot =>
    have h2 : ∃ A2 s2 n, Safe D0 b A2 ∧ A.next ≤ A2.next ∧ SlotsWithin D0 b A2 s2 ∧ Within D0 b A2 n ∧
        (do let (p, pos) ← Wasm.insertParent b A2 s2 to
            Wasm.insertAtPosition A2 s2 p n pos slot : Res _) = .ok (A', s') := by
      unfold WebDom.applyPatch Wasm.applyPatch at e
      simp only at e
      split at e
      · split at e
        · cases e
        · next n hn => exact ⟨A, _, n, h, Nat.le_refl _, slots_none hs _, hs _ _ hn, e⟩
      · obtain ⟨n, h1, e⟩ := res_bind e
        obtain ⟨A2, h2, e⟩ := res_bind e
        have hn := h.findNode hb hs h1
        obtain ⟨h3, h4⟩ := h.replaceByEmpty hD hn h2
        exact ⟨A2, s, n, h3, h4, Fenced.slotsWithin_mono hs h4, mono h4 hn, e⟩
    obtain ⟨A2, s2, n, g1, g2, g3, g4, e⟩ := h2
    obtain ⟨⟨p, pos⟩, h1, e⟩ := res_bind e
    obtain ⟨h6, h7, h8⟩ := g1.insertAtPosition hD g3 (g1.insertParent (mono g2 hb) g3 h1) g4 e
    exact ⟨h6, by omega, h8⟩
  | updateProps q changes =>
    obtain ⟨n, h1, e⟩ := res_bind e
    have hn := h.findNode hb hs h1
    have h2 : ∃ A2, Safe D0 b A2 ∧ A.next ≤ A2.next ∧ (match A2.data n with
        | ⟨.element tag attrs, ns⟩ => do
          let attrs ← dom.updateAttrs ns attrs changes
          .ok (A2.setData n ⟨.element tag attrs, ns⟩, s)
        | _ => .ok (A2, s) : Res _) = .ok (A', s') := by
      refine ⟨_, ?_, ?_, e⟩
      · split
        · exact (h.setTextContent hD hn _).1
        · exact h
      · split
        · exact (h.setTextContent hD hn _).2
        · exact Nat.le_refl _
    obtain ⟨A2, g1, g2, e⟩ := h2
    split at e
    · obtain ⟨a, _, e⟩ := res_bind e
      cases e; exact ⟨g1.setData hn.2 _, g2, Fenced.slotsWithin_mono hs g2⟩
    · cases e; exact ⟨g1, g2, Fenced.slotsWithin_mono hs g2⟩
  | opaqueChanged q content =>
    obtain ⟨n, h1, e⟩ := res_bind e
    obtain ⟨_, _, e⟩ := res_bind e
    cases e
    exact ⟨h, Nat.le_refl _, hs⟩

theorem applyLoop (dom : WebDom) (hD : D0.WF) : ∀ (ps : List Patch) {A : Arena NodeData}, Safe D0 b A →
    Within D0 b A b → ∀ {s : Slots}, SlotsWithin D0 b A s → ∀ {A' : Arena NodeData} {s' : Slots},
    dom.applyLoop b A s ps = .ok (A', s') → Safe D0 b A'
  | [], _, h, _, _, _, _, _, e => by cases e; exact h
  | P :: ps, A, h, hb, s, hs, A', s', e => by
    unfold WebDom.applyLoop at e
    obtain ⟨⟨A2, s2⟩, h1, e⟩ := res_bind e
    obtain ⟨g1, g2, g3⟩ := h.applyPatch dom hD hb hs h1
    exact applyLoop dom hD ps g1 ⟨Nat.lt_of_lt_of_le hb.1 g2, hb.2⟩ g3 e

end Safe
end Hotmeal
