import Verif.Lemmas.ArenaOps
import Verif.Props.Attrs

/-!
# Sound documents

What every document built by the parser or the editing API satisfies
(`C44_parser_builds_sound_documents`, `C18_api_keeps_sound`).
-/

namespace Hotmeal

/-- Links form a tree, only elements and document nodes have children, attribute names are
unique, and a document node is never a child. -/
structure Arena.Sound (A : Arena NodeData) : Prop where
  wf : A.WF
  leaf : ∀ n, ((∃ s, (A.data n).kind = .text s) ∨ (∃ s, (A.data n).kind = .comment s)) →
    A.children n = []
  uniq : ∀ n tag attrs, (A.data n).kind = .element tag attrs → attrs.Unique
  nodoc : ∀ n p, A.parent n = some p → (A.data n).kind ≠ .document

/-- A node that may have children. -/
def Arena.Container (A : Arena NodeData) (n : Nat) : Prop :=
  (A.data n).kind = .document ∨ ∃ tag attrs, (A.data n).kind = .element tag attrs

namespace Arena

theorem Container.not_leaf {A : Arena NodeData} {n : Nat} (h : A.Container n) :
    ¬ ((∃ s, (A.data n).kind = .text s) ∨ (∃ s, (A.data n).kind = .comment s)) := by
  rintro (⟨s, hs⟩ | ⟨s, hs⟩) <;> rcases h with h | ⟨t, a, h⟩ <;> rw [h] at hs <;> cases hs

/-- Attaching `x` below the container `p`, keeping the data. -/
theorem Sound.attach {A A' : Arena NodeData} (h : A.Sound) (hwf : A'.WF) {p x : Nat}
    (hp : A.Container p) (hx : (A.data x).kind ≠ .document)
    (hdata : ∀ m, A'.data m = A.data m)
    (hpar : ∀ m, A'.parent m = A.parent m ∨ A'.parent m = none ∨ m = x)
    (hch : ∀ m, m ≠ p → A.children m = [] → A'.children m = []) : A'.Sound where
  wf := hwf
  leaf := by
    intro n hn
    rw [hdata] at hn
    apply hch
    · rintro rfl; exact hp.not_leaf hn
    · exact h.leaf n hn
  uniq := by intro n tag attrs hk; rw [hdata] at hk; exact h.uniq n tag attrs hk
  nodoc := by
    intro n q hq
    rw [hdata]
    rcases hpar n with h1 | h1 | rfl
    · exact h.nodoc n q (by rw [← h1]; exact hq)
    · rw [h1] at hq; cases hq
    · exact hx

theorem Sound.newNode {A : Arena NodeData} (h : A.Sound) (d : NodeData)
    (hu : ∀ tag attrs, d.kind = .element tag attrs → attrs.Unique) : (A.newNode d).1.Sound where
  wf := h.wf.newNode d
  leaf := by
    intro n hn
    rw [h.wf.newNode_children]
    rw [newNode_data] at hn
    split at hn
    · next e => exact h.wf.children_ge (by omega)
    · exact h.leaf n hn
  uniq := by
    intro n tag attrs hk
    rw [newNode_data] at hk
    split at hk
    · exact hu tag attrs hk
    · exact h.uniq n tag attrs hk
  nodoc := by
    intro n p hp
    rw [h.wf.newNode_parent] at hp
    have := (h.wf.lt_of_parent _ _ hp).1
    rw [newNode_data, if_neg (by omega)]
    exact h.nodoc n p hp

theorem Sound.detach {A : Arena NodeData} (h : A.Sound) (n : Nat) : (A.detach n).Sound where
  wf := h.wf.detach n
  leaf := by
    intro m hm
    rw [detach_data] at hm
    rw [h.wf.detach_children, h.leaf m hm]; rfl
  uniq := by intro m tag attrs hk; rw [detach_data] at hk; exact h.uniq m tag attrs hk
  nodoc := by
    intro m q hq
    rw [detach_parent] at hq
    rw [detach_data]
    split at hq
    · cases hq
    · exact h.nodoc m q hq

/-- Changing the data of a node without changing its sort. -/
theorem Sound.setData {A : Arena NodeData} (h : A.Sound) (n : Nat) (d : NodeData)
    (h1 : ((∃ s, d.kind = .text s) ∨ (∃ s, d.kind = .comment s)) → A.children n = [])
    (h2 : ∀ tag attrs, d.kind = .element tag attrs → attrs.Unique)
    (h3 : d.kind = .document → A.parent n = none) : (A.setData n d).Sound where
  wf := h.wf.setData n d
  leaf := by
    intro m hm
    simp only [Arena.setData, upd_apply] at hm ⊢
    split at hm
    · next e => subst e; exact h1 hm
    · exact h.leaf m hm
  uniq := by
    intro m tag attrs hk
    simp only [Arena.setData, upd_apply] at hk
    split at hk
    · exact h2 tag attrs hk
    · exact h.uniq m tag attrs hk
  nodoc := by
    intro m p hp
    simp only [Arena.setData, upd_apply] at hp ⊢
    split
    · next e => subst e; intro hk; rw [h3 hk] at hp; cases hp
    · exact h.nodoc m p hp

theorem Sound.appendRaw {A : Arena NodeData} (h : A.Sound) {p c : Nat} (hp : p < A.next)
    (hc : c < A.next) (hanc : ¬ A.Anc c p) (hcon : A.Container p)
    (hk : (A.data c).kind ≠ .document) : (A.appendRaw p c).Sound := by
  apply h.attach (h.wf.appendRaw hp hc hanc) hcon hk
  · intro m; simp [Arena.appendRaw, detach_data]
  · intro m
    simp only [Arena.appendRaw, upd_apply, detach_parent]
    split
    · exact .inr (.inr (by assumption))
    · exact .inl rfl
  · intro m hm he
    simp only [Arena.appendRaw, upd_apply, if_neg hm, h.wf.detach_children, he]
    rfl

theorem Sound.append {A A' : Arena NodeData} (h : A.Sound) {p c : Nat} (hp : p < A.next)
    (hc : c < A.next) (hcon : A.Container p) (hk : (A.data c).kind ≠ .document)
    (e : A.append p c = .ok A') : A'.Sound := by
  unfold Arena.append at e
  split at e
  · cases e
  · next hn =>
    cases e
    exact h.appendRaw hp hc (fun ha => hn ((h.wf.isAncestorOrSelf_iff c p).2 ha)) hcon hk

theorem append_data {A A' : Arena NodeData} {p c : Nat} (e : A.append p c = .ok A') :
    A'.data = A.data ∧ A'.next = A.next := by
  unfold Arena.append at e
  split at e
  · cases e
  · cases e; exact ⟨by simp [Arena.appendRaw, detach_data], by simp [Arena.appendRaw, detach_next]⟩

/-- A node with a child is a container, in a sound arena. -/
theorem Sound.container_of_child {A : Arena NodeData} (h : A.Sound) {n p : Nat}
    (hp : A.parent n = some p) : A.Container p := by
  have hm : n ∈ A.children p := (h.wf.mem_iff _ _).2 hp
  unfold Container
  cases hk : (A.data p).kind with
  | document => exact .inl rfl
  | element t a => exact .inr ⟨t, a, rfl⟩
  | text s => rw [h.leaf p (.inl ⟨s, hk⟩)] at hm; cases hm
  | comment s => rw [h.leaf p (.inr ⟨s, hk⟩)] at hm; cases hm

theorem Sound.insertBefore {A A' : Arena NodeData} (h : A.Sound) {s x : Nat}
    (hx : x < A.next) (hanc : ¬ A.Anc x s) (hk : (A.data x).kind ≠ .document)
    (e : A.insertBefore s x = .ok A') : A'.Sound := by
  have hwf := h.wf.insertBefore hx hanc e
  unfold Arena.insertBefore at e
  split at e
  · cases e
  · simp only at e
    split at e
    · cases e; exact h.detach x
    · next p hp =>
      split at e
      · cases e
      · cases e
        have hp' : A.parent s = some p := by
          rw [detach_parent] at hp
          split at hp
          · cases hp
          · exact hp
        apply h.attach hwf (h.container_of_child hp') hk
        · intro m; simp [detach_data]
        · intro m
          simp only [upd_apply, detach_parent]
          split
          · exact .inr (.inr (by assumption))
          · exact .inl rfl
        · intro m hm he
          simp only [upd_apply, if_neg hm, h.wf.detach_children, he]
          rfl

theorem Sound.insertAfter {A A' : Arena NodeData} (h : A.Sound) {s x : Nat}
    (hx : x < A.next) (hanc : ¬ A.Anc x s) (hk : (A.data x).kind ≠ .document)
    (e : A.insertAfter s x = .ok A') : A'.Sound := by
  have hwf := h.wf.insertAfter hx hanc e
  unfold Arena.insertAfter at e
  split at e
  · cases e
  · simp only at e
    split at e
    · cases e; exact h.detach x
    · next p hp =>
      split at e
      · cases e
      · cases e
        have hp' : A.parent s = some p := by
          rw [detach_parent] at hp
          split at hp
          · cases hp
          · exact hp
        apply h.attach hwf (h.container_of_child hp') hk
        · intro m; simp [detach_data]
        · intro m
          simp only [upd_apply, detach_parent]
          split
          · exact .inr (.inr (by assumption))
          · exact .inl rfl
        · intro m hm he
          simp only [upd_apply, if_neg hm, h.wf.detach_children, he]
          rfl

theorem insertBefore_data {A A' : Arena NodeData} {s x : Nat} (e : A.insertBefore s x = .ok A') :
    A'.data = A.data ∧ A'.next = A.next := by
  unfold Arena.insertBefore at e
  split at e
  · cases e
  · simp only at e
    split at e
    · cases e; exact ⟨detach_data A x, detach_next A x⟩
    · split at e
      · cases e
      · cases e; exact ⟨detach_data A x, detach_next A x⟩

end Arena

/-- A document whose arena is sound and whose root exists. -/
structure Document.Sound (D : Document) : Prop where
  arena : D.arena.Sound
  root_lt : D.root < D.arena.next

end Hotmeal
