import Verif.Lemmas.WebDom
import Verif.Lemmas.ReadSound

set_option autoImplicit false
set_option linter.unusedSectionVars false

/-!
# Patches keep a page in the namespace of HTML
-/

namespace Hotmeal
namespace Reader
namespace AllHtml

variable {A A' : Arena NodeData}

theorem of_data (h : AllHtml A) (e : A'.data = A.data) : AllHtml A' := fun n => by rw [e]; exact h n

theorem newNode (h : AllHtml A) (k : NodeKind) : AllHtml (A.newNode ⟨k, .html⟩).1 := by
  intro n
  rw [Arena.newNode_data]
  split
  · rfl
  · exact h n

theorem setData (h : AllHtml A) {d : NodeData} (hd : d.ns = .html) (n : Nat) : AllHtml (A.setData n d) := by
  intro m
  show (Arena.upd A.data n d m).ns = .html
  unfold Arena.upd
  split
  · exact hd
  · exact h m

theorem detach (h : AllHtml A) (n : Nat) : AllHtml (A.detach n) := h.of_data (Arena.detach_data A n)

theorem appendRaw (h : AllHtml A) (p c : Nat) : AllHtml (A.appendRaw p c) := h.of_data (Arena.detach_data A c)

theorem insertBefore (h : AllHtml A) {s x : Nat} (e : A.insertBefore s x = .ok A') : AllHtml A' := by
  unfold Arena.insertBefore at e
  split at e
  · cases e
  · simp only at e
    split at e
    · cases e; exact h.detach x
    · split at e
      · cases e
      · cases e; exact h.of_data (Arena.detach_data A x)

theorem appendChild (h : AllHtml A) {p c : Nat} (e : Wasm.appendChild A p c = .ok A') : AllHtml A' := by
  unfold Wasm.appendChild at e
  split at e
  · cases e
  · cases e; exact h.appendRaw _ _

theorem replaceChild (h : AllHtml A) {p c o : Nat} (e : Wasm.replaceChild A p c o = .ok A') : AllHtml A' := by
  unfold Wasm.replaceChild at e
  split at e
  · cases e
  · split at e
    · cases e; exact h
    · obtain ⟨A1, e1, e⟩ := res_bind e
      cases e
      exact (h.insertBefore e1).detach _

theorem replaceByEmpty (h : AllHtml A) {n : Nat} (e : Wasm.replaceByEmpty A n = .ok A') : AllHtml A' := by
  unfold Wasm.replaceByEmpty at e
  split at e
  · cases e; exact h
  · exact (h.newNode (.text [])).replaceChild e

theorem fillGaps (h : AllHtml A) (p k : Nat) : AllHtml (Hotmeal.fillGaps A p k) := by
  induction k generalizing A with
  | zero => exact h
  | succ k ih => exact ih (h.add p (.text []))

theorem insertAtPosition (h : AllHtml A) {slots slots' : Slots} {p n pos : Nat} {slot : Option Nat}
    (e : Wasm.insertAtPosition A slots p n pos slot = .ok (A', slots')) : AllHtml A' := by
  unfold Wasm.insertAtPosition at e
  split at e
  · obtain ⟨A1, e1, e⟩ := res_bind e
    cases e
    exact h.replaceChild e1
  · obtain ⟨A1, e1, e⟩ := res_bind e
    cases e
    exact (h.fillGaps _ _).appendChild e1

theorem detachAll (h : AllHtml A) (l : List Nat) : AllHtml (Hotmeal.detachAll A l) := by
  induction l generalizing A with
  | nil => exact h
  | cons n l ih => exact ih (h.detach n)

theorem setTextContent (h : AllHtml A) (n : Nat) (s : Str) : AllHtml (Wasm.setTextContent A n s) := by
  have hn := h n
  unfold Wasm.setTextContent
  split
  · next e => exact h.setData (by rw [e] at hn; exact hn) n
  · next e => exact h.setData (by rw [e] at hn; exact hn) n
  · simp only
    split
    · exact h.detachAll _
    · exact (h.detachAll _).add _ _
  · exact h

mutual
theorem createInsertContent : ∀ (c : InsertContent) {A A' : Arena NodeData} {n : Nat}, AllHtml A →
    Wasm.createInsertContent A c = .ok (A', n) → AllHtml A'
  | .element tag attrs children, A, A', n, hA, e => by
    simp only [Wasm.createInsertContent] at e
    obtain ⟨A1, e1, e⟩ := res_bind e
    cases e
    exact appendContents children (hA.newNode _) e1
  | .text s, A, _, _, hA, e => by
    have e1 : (A.newNode ⟨.text s, .html⟩).1 = _ := (Prod.ext_iff.1 (Except.ok.inj e)).1
    simp only at e1
    rw [← e1]
    exact hA.newNode _
  | .comment s, A, _, _, hA, e => by
    have e1 : (A.newNode ⟨.comment s, .html⟩).1 = _ := (Prod.ext_iff.1 (Except.ok.inj e)).1
    simp only at e1
    rw [← e1]
    exact hA.newNode _
theorem appendContents : ∀ (cs : List InsertContent) {A A' : Arena NodeData} {n : Nat}, AllHtml A →
    Wasm.appendContents A n cs = .ok A' → AllHtml A'
  | [], A, A', n, hA, e => by cases e; exact hA
  | c :: cs, A, A', n, hA, e => by
    simp only [Wasm.appendContents] at e
    obtain ⟨⟨A1, m⟩, e1, e⟩ := res_bind e
    obtain ⟨A2, e2, e⟩ := res_bind e
    exact appendContents cs ((createInsertContent c hA e1).appendChild e2) e
end

theorem applyPatch {root : Nat} {slots slots' : Slots} {P : Patch} (hA : AllHtml A)
    (e : Wasm.applyPatch root A slots P = .ok (A', slots')) : AllHtml A' := by
  cases P with
  | setText path s =>
    obtain ⟨n, _, e⟩ := res_bind e
    cases e
    exact hA.setTextContent n s
  | setAttribute path name value =>
    obtain ⟨n, _, e⟩ := res_bind e
    have := hA n
    generalize A.data n = d at this e
    rcases d with ⟨k, ns⟩
    cases k with
    | element tag attrs => cases e; refine hA.setData ?_ n; exact this
    | _ => cases e
  | removeAttribute path name =>
    obtain ⟨n, _, e⟩ := res_bind e
    have := hA n
    generalize A.data n = d at this e
    rcases d with ⟨k, ns⟩
    cases k with
    | element tag attrs => cases e; refine hA.setData ?_ n; exact this
    | _ => cases e
  | remove path =>
    match path, e with
    | [s], e =>
      simp only [Wasm.applyPatch] at e
      split at e
      · obtain ⟨A1, e1, e⟩ := res_bind e
        cases e
        exact hA.replaceByEmpty e1
      · cases e; exact hA
    | s :: i :: is, e =>
      obtain ⟨n, _, e⟩ := res_bind e
      obtain ⟨A1, e1, e⟩ := res_bind e
      cases e
      exact hA.replaceByEmpty e1
  | insertElement at_ tag attrs children slot =>
    obtain ⟨⟨p, pos⟩, _, e⟩ := res_bind e
    obtain ⟨⟨A1, n⟩, e1, e⟩ := res_bind e
    exact (createInsertContent (.element tag attrs children) hA e1).insertAtPosition e
  | insertText at_ s slot =>
    obtain ⟨⟨p, pos⟩, _, e⟩ := res_bind e
    exact (hA.newNode _).insertAtPosition e
  | insertComment at_ s slot =>
    obtain ⟨⟨p, pos⟩, _, e⟩ := res_bind e
    exact (hA.newNode _).insertAtPosition e
  | updateProps path changes =>
    obtain ⟨n, _, e⟩ := res_bind e
    have key : ∀ A : Arena NodeData, AllHtml A →
        (match A.data n with
          | ⟨.element tag attrs, ns⟩ =>
            .ok (A.setData n ⟨.element tag (Wasm.updateAttrs attrs changes), ns⟩, slots)
          | _ => .ok (A, slots) : Res (Arena NodeData × Slots)) = .ok (A', slots') → AllHtml A' := by
      intro A hA e
      have := hA n
      generalize A.data n = d at this e
      rcases d with ⟨k, ns⟩
      cases k with
      | element tag attrs => cases e; refine hA.setData ?_ n; exact this
      | _ => cases e; exact hA
    simp only at e
    generalize changes.find? (fun c => decide (c.name = .text)) = o at e
    rcases o with _ | ⟨_, _ | t⟩
    · exact key _ hA e
    · exact key _ hA e
    · exact key _ (hA.setTextContent n t) e
  | move from_ to slot =>
    simp only [Wasm.applyPatch] at e
    split at e
    · split at e
      · cases e
      · obtain ⟨⟨n, A1, s1⟩, e1, e⟩ := res_bind e
        cases e1
        obtain ⟨⟨p, pos⟩, _, e⟩ := res_bind e
        exact hA.insertAtPosition e
    · obtain ⟨n', _, e⟩ := res_bind e
      obtain ⟨A2, e2, e⟩ := res_bind e
      obtain ⟨⟨n, A1, s1⟩, e1, e⟩ := res_bind e
      cases e1
      obtain ⟨⟨p, pos⟩, _, e⟩ := res_bind e
      exact (hA.replaceByEmpty e2).insertAtPosition e
  | opaqueChanged path s =>
    obtain ⟨n, _, e⟩ := res_bind e
    obtain ⟨m, _, e⟩ := res_bind e
    cases e
    exact hA

/-- Patches whose names the DOM takes keep a page in the namespace of HTML. -/
theorem applyPatches {root : Nat} {ps : List Patch} (hA : AllHtml A) (e : Wasm.applyPatches root A ps = .ok A') :
    AllHtml A' := by
  unfold Wasm.applyPatches at e
  obtain ⟨⟨A1, s1⟩, e1, e⟩ := res_bind e
  cases e
  have : ∀ (ps : List Patch) {A A' : Arena NodeData} {slots slots' : Slots}, AllHtml A →
      Wasm.applyLoop root A slots ps = .ok (A', slots') → AllHtml A' := by
    intro ps
    induction ps with
    | nil => intro A A' _ _ h e; cases e; exact h
    | cons P ps ih =>
      intro A A' _ _ h e
      obtain ⟨⟨A1, s1⟩, e1, e⟩ := res_bind e
      exact ih (h.applyPatch e1) e
  exact this ps hA e1

end AllHtml
end Reader

end Hotmeal
