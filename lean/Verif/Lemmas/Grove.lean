import Verif.Spec.Patch
import Verif.Lemmas.Copy
import Verif.Lemmas.Traverse

set_option autoImplicit false
set_option linter.unusedSectionVars false

/-!
# Arenas that hold the trees of a store
-/

namespace Hotmeal

/-! ### Trees and paths -/

/-- The node at a path of the tree of `r`. -/
theorem Arena.WF.get?_tree {A : Arena NodeData} (h : A.WF) {r : Nat} {q : List Nat} {u : Html}
    (hq : (A.tree r).get? q = some u) : ∃ n, navLoop A r q = .ok n ∧ A.tree n = u := by
  induction q generalizing r with
  | nil => cases hq; exact ⟨r, rfl, rfl⟩
  | cons i is ih =>
    rw [h.tree_eq] at hq
    cases hk : (A.data r).kind with
    | element tag attrs =>
      rw [hk] at hq
      simp only [Html.ofKind, Html.get?, Arena.forest, List.getElem?_map] at hq
      cases e : (A.children r)[i]? with
      | none => rw [e] at hq; cases hq
      | some c =>
        rw [e] at hq
        obtain ⟨n, hn, ht⟩ := ih hq
        exact ⟨n, by simp only [navLoop, e, hn], ht⟩
    | _ => rw [hk] at hq; simp [Html.ofKind, Html.get?] at hq

/-- `A'` is `A` with other data and children at `p`; there may be new nodes. -/
structure Changed (A A' : Arena NodeData) (p : Nat) : Prop where
  wf : A'.WF
  le : A.next ≤ A'.next
  children : ∀ m, m < A.next → m ≠ p → A'.children m = A.children m
  fresh : ∀ m q, A.next ≤ q → m ∈ A'.children q → A.next ≤ m
  data : ∀ m, m < A.next → m ≠ p → A'.data m = A.data m

theorem Changed.tree_other {A A' : Arena NodeData} {p x : Nat} (h : A.WF) (hc : Changed A A' p)
    (hx : x < A.next) (hp : ¬ A.Anc x p) : A'.tree x = A.tree x := by
  refine Arena.tree_congr h hc.wf x fun m hm => ?_
  have hne : m ≠ p := by rintro rfl; exact hp hm
  have hm' := lt_of_anc h hx hm
  exact ⟨hc.children m hm' hne, hc.data m hm' hne⟩

/-- A change at the node at path `q` is a change of the tree at path `q`. -/
theorem Changed.tree_put {A A' : Arena NodeData} {p : Nat} (h : A.WF) (hc : Changed A A' p)
    {r : Nat} {q : List Nat} {u : Html} (hr : r < A.next) (hq : (A.tree r).get? q = some u)
    (hp : navLoop A r q = .ok p) : A'.tree r = Html.put (A'.tree p) q (A.tree r) := by
  induction q generalizing r with
  | nil => cases hp; rfl
  | cons i is ih =>
    have hq0 := hq
    rw [h.tree_eq] at hq
    cases hk : (A.data r).kind with
    | element tag attrs =>
      rw [hk] at hq
      simp only [Html.ofKind, Html.get?, Arena.forest, List.getElem?_map] at hq
      simp only [navLoop] at hp
      cases e : (A.children r)[i]? with
      | none => rw [e] at hq; cases hq
      | some c =>
        rw [e] at hq hp
        simp only at hp
        have hmem := List.mem_of_getElem? e
        have hcp := (h.mem_iff _ _).1 hmem
        have hlt := (h.lt_of_parent _ _ hcp).1
        have hcan := h.navLoop_anc hp
        have hne : r ≠ p := by
          rintro rfl
          have := h.anc_antisymm hcan (.step hcp .refl)
          exact h.self_parent_ne hcp this.symm
        rw [hc.wf.tree_eq, h.tree_eq, hc.data r hr hne, hk, Arena.forest, hc.children r hr hne]
        simp only [Html.ofKind, Html.put, Arena.forest]
        congr 1
        apply List.ext_getElem?
        intro j
        rw [List.getElem?_modify, List.getElem?_map, List.getElem?_map]
        by_cases hj : i = j
        · subst hj
          rw [e]
          simp only [Option.map_some, Functor.map, if_true]
          rw [ih hlt hq hp]
        · cases ej : (A.children r)[j]? with
          | none => rfl
          | some d =>
            simp only [Option.map_some, Functor.map, if_neg hj]
            have hdm := List.mem_of_getElem? ej
            have hdp := (h.mem_iff _ _).1 hdm
            rw [hc.tree_other h (h.lt_of_parent _ _ hdp).1]
            intro hd
            have hcd : c ≠ d := by
              rintro rfl
              obtain ⟨h1, e1⟩ := List.getElem?_eq_some_iff.1 e
              obtain ⟨h2, e2⟩ := List.getElem?_eq_some_iff.1 ej
              exact hj ((List.getElem_inj (h.nodup r)).1 (e1.trans e2.symm))
            have key : ∀ {c d : Nat}, A.parent c = some r → A.parent d = some r → c ≠ d → ¬ A.Anc c d := by
              intro c d hc hd hne ha
              rcases ha.cases' with e | ⟨p', hp', ha'⟩
              · exact hne e
              · rw [hd] at hp'; cases hp'
                exact h.self_parent_ne hc (h.anc_antisymm (.step hc .refl) ha')
            rcases Arena.anc_total hcan hd with h1 | h1
            · exact key hcp hdp hcd h1
            · exact key hdp hcp (Ne.symm hcd) h1
    | _ => rw [hk] at hq; simp [Html.ofKind, Html.get?] at hq

/-! ### The grove -/

/-- `F`: the part of the page outside the patched tree, whose root is `b`. -/
structure Fence (A0 : Arena NodeData) (b : Nat) (F : Nat → Prop) : Prop where
  up : ∀ m p, F m → A0.parent m = some p → F p
  base : ∀ p, A0.parent b = some p → F p
  notb : ¬ F b
  blt : b < A0.next
  lt : ∀ m, F m → m < A0.next

/-- The trees below the `live` nodes are apart from each other and from what is outside, and what
is outside is as it was. -/
structure Grove (A0 : Arena NodeData) (b : Nat) (F : Nat → Prop) (A : Arena NodeData)
    (live : Nat → Prop) : Prop where
  wf : A.WF
  le : A0.next ≤ A.next
  lt : ∀ r, live r → r < A.next
  free : ∀ r, live r → r ≠ b → A.parent r = none
  out : ∀ r, live r → ¬ F r
  parent : ∀ m, F m → A.parent m = A0.parent m
  children : ∀ m, F m → A.children m = A0.children m
  data : ∀ m, F m → A.data m = A0.data m
  bpar : A.parent b = A0.parent b

namespace Grove

variable {A0 A A' : Arena NodeData} {b : Nat} {F : Nat → Prop} {live live' : Nat → Prop}

theorem up (hF : Fence A0 b F) (h : Grove A0 b F A live) {x m : Nat} (hm : F m) (ha : A.Anc x m) :
    F x := by
  induction ha with
  | refl => exact hm
  | @step m p hp _ ih =>
    rw [h.parent m hm] at hp
    exact ih (hF.up m p hm hp)

theorem not_out (hF : Fence A0 b F) (h : Grove A0 b F A live) {r n : Nat} (hr : live r)
    (ha : A.Anc r n) : ¬ F n := fun hn => h.out r hr (h.up hF hn ha)

theorem apart (hF : Fence A0 b F) (h : Grove A0 b F A live) {r r' : Nat} (hr : live r)
    (hr' : live r') (ha : A.Anc r r') : r = r' := by
  rcases ha.cases' with e | ⟨p, hp, ha'⟩
  · exact e
  · by_cases e : r' = b
    · subst e
      rw [h.bpar] at hp
      exact absurd (h.up hF (hF.base p hp) ha') (h.out r hr)
    · rw [h.free r' hr' e] at hp; cases hp

theorem unique (hF : Fence A0 b F) (h : Grove A0 b F A live) {r r' n : Nat} (hr : live r)
    (hr' : live r') (ha : A.Anc r n) (ha' : A.Anc r' n) : r = r' := by
  rcases Arena.anc_total ha ha' with e | e
  · exact h.apart hF hr hr' e
  · exact (h.apart hF hr' hr e).symm

/-- A child of a node in a live tree is neither live nor the root. -/
theorem child_ne (hF : Fence A0 b F) (h : Grove A0 b F A live) {r n p : Nat} (hr : live r)
    (ha : A.Anc r p) (hn : A.parent n = some p) : n ≠ b ∧ ¬ live n := by
  have hb : n ≠ b := by
    rintro rfl
    rw [h.bpar] at hn
    exact h.not_out hF hr ha (hF.base p hn)
  refine ⟨hb, fun hl => ?_⟩
  rw [h.free n hl hb] at hn; cases hn

/-- A change inside a live tree. -/
theorem change (hF : Fence A0 b F) (h : Grove A0 b F A live) {r p : Nat} (hr : live r)
    (ha : A.Anc r p) (hc : Changed A A' p)
    (hnew : ∀ m ∈ A'.children p, m ∈ A.children p ∨ (live m ∧ m ≠ b) ∨ A.next ≤ m)
    (hl : ∀ x, live' x → x < A'.next ∧ ¬ F x ∧ (x ≠ b → A'.parent x = none)) :
    Grove A0 b F A' live' := by
  have hp := h.not_out hF hr ha
  -- nodes that are in `F`, or `b`, keep their parent
  have keep : ∀ m, m < A.next → (∀ q, A.parent m = some q → F q) → (F m ∨ m = b) →
      A'.parent m = A.parent m := by
    intro m hm hq hmF
    cases e : A.parent m with
    | some q =>
      have hqF := hq q e
      have hne : q ≠ p := by rintro rfl; exact hp hqF
      rw [← hc.wf.mem_iff, hc.children q (h.wf.lt_of_parent _ _ e).2 hne, h.wf.mem_iff, e]
    | none =>
      cases e' : A'.parent m with
      | none => rfl
      | some q =>
        exfalso
        rw [← hc.wf.mem_iff] at e'
        by_cases hqp : q = p
        · subst hqp
          rcases hnew m e' with h1 | ⟨h1, h2⟩ | h1
          · rw [h.wf.mem_iff, e] at h1; cases h1
          · rcases hmF with h3 | h3
            · exact h.out m h1 h3
            · exact h2 h3
          · omega
        · rcases Nat.lt_or_ge q A.next with h6 | h6
          · rw [hc.children q h6 hqp, h.wf.mem_iff, e] at e'; cases e'
          · have := hc.fresh m q h6 e'; omega
  have ltF : ∀ m, F m → m < A.next := fun m hm => Nat.lt_of_lt_of_le (hF.lt m hm) h.le
  have neF : ∀ m, F m → m ≠ p := by rintro m hm rfl; exact hp hm
  refine ⟨hc.wf, Nat.le_trans h.le hc.le, fun x hx => (hl x hx).1, fun x hx => (hl x hx).2.2,
    fun x hx => (hl x hx).2.1, ?_, ?_, ?_, ?_⟩
  · intro m hm
    rw [keep m (ltF m hm) ?_ (.inl hm), h.parent m hm]
    intro q hq; rw [h.parent m hm] at hq; exact hF.up m q hm hq
  · intro m hm; rw [hc.children m (ltF m hm) (neF m hm), h.children m hm]
  · intro m hm; rw [hc.data m (ltF m hm) (neF m hm), h.data m hm]
  · rw [keep b (Nat.lt_of_lt_of_le hF.blt h.le) ?_ (.inr rfl), h.bpar]
    intro q hq; rw [h.bpar] at hq; exact hF.base q hq

end Grove

/-! ### Representation of a store -/

/-- The nodes whose trees matter: the roots of filled slots and the node in hand. -/
def Live (slots : Slots) (σ : Store) (hand : Option (Nat × Html)) (r : Nat) : Prop :=
  (∃ s, σ s ≠ none ∧ slots s = some r) ∨ ∃ t, hand = some (r, t)

/-- The arena `A` with `slots` holds the trees of `σ`, and a tree that is in no slot. -/
structure Rep (A0 : Arena NodeData) (b : Nat) (F : Nat → Prop) (A : Arena NodeData) (slots : Slots)
    (σ : Store) (hand : Option (Nat × Html)) : Prop where
  grove : Grove A0 b F A (Live slots σ hand)
  root : ∀ s t, σ s = some t → ∃ r, slots s = some r ∧ A.tree r = t
  inj : ∀ s s', σ s ≠ none → σ s' ≠ none → slots s = slots s' → s = s'
  zero : slots 0 = some b
  filled : σ 0 ≠ none
  held : ∀ x t, hand = some (x, t) → A.tree x = t ∧ ∀ s, σ s ≠ none → slots s ≠ some x

namespace Rep

variable {A0 A A' : Arena NodeData} {b : Nat} {F : Nat → Prop} {slots slots' : Slots}
  {σ σ' : Store} {hand : Option (Nat × Html)}

theorem live_slot {s r : Nat} {t : Html} (hs : σ s = some t) (hr : slots s = some r) :
    Live slots σ hand r := .inl ⟨s, by rw [hs]; simp, hr⟩

/-- The node at a path. -/
theorem find (hF : Fence A0 b F) (h : Rep A0 b F A slots σ hand) {path : Path} {u : Html}
    (hp : σ.find path = some u) : ∃ s q t r n, path = s :: q ∧ σ s = some t ∧ slots s = some r ∧
      A.tree r = t ∧ t.get? q = some u ∧ navLoop A r q = .ok n ∧ navigate A slots path = .ok n ∧
      A.tree n = u ∧ A.Anc r n ∧ n < A.next := by
  cases path with
  | nil => cases hp
  | cons s q =>
    simp only [Store.find] at hp
    cases e : σ s with
    | none => rw [e] at hp; cases hp
    | some t =>
      rw [e] at hp
      obtain ⟨r, hr, ht⟩ := h.root s t e
      rw [← ht] at hp
      obtain ⟨n, hn, hu⟩ := h.grove.wf.get?_tree hp
      have ha := h.grove.wf.navLoop_anc hn
      refine ⟨s, q, t, r, n, rfl, e, hr, ht, ht ▸ hp, hn, ?_, hu, ha,
        lt_of_anc h.grove.wf (h.grove.lt r (live_slot e hr)) ha⟩
      simp only [navigate, hr, hn]

/-- Other slots, as long as the filled ones are the same. -/
theorem congr (h : Rep A0 b F A slots σ hand) (h0 : slots' 0 = some b)
    (hs : ∀ s, σ s ≠ none → slots' s = slots s) : Rep A0 b F A slots' σ hand := by
  have hlive : ∀ r, Live slots' σ hand r → Live slots σ hand r := by
    rintro r (⟨s, h1, h2⟩ | h1)
    · exact .inl ⟨s, h1, hs s h1 ▸ h2⟩
    · exact .inr h1
  obtain ⟨g, h1, h2, h3, h4, h5⟩ := h
  refine ⟨⟨g.wf, g.le, fun r hr => g.lt r (hlive r hr), fun r hr => g.free r (hlive r hr),
    fun r hr => g.out r (hlive r hr), g.parent, g.children, g.data, g.bpar⟩, ?_, ?_, h0, h4, ?_⟩
  · intro s t hst
    obtain ⟨r, hr, ht⟩ := h1 s t hst
    exact ⟨r, by rw [hs s (by rw [hst]; simp), hr], ht⟩
  · intro s s' hs1 hs2 e
    rw [hs s hs1, hs s' hs2] at e
    exact h2 s s' hs1 hs2 e
  · intro x t hx
    refine ⟨(h5 x t hx).1, fun s hs1 => ?_⟩
    rw [hs s hs1]; exact (h5 x t hx).2 s hs1

/-- Let go of the node in hand. -/
theorem drop (h : Rep A0 b F A slots σ hand) : Rep A0 b F A slots σ none := by
  have hlive : ∀ r, Live slots σ none r → Live slots σ hand r := by
    rintro r (h1 | ⟨t, h1⟩)
    · exact .inl h1
    · cases h1
  obtain ⟨g, h1, h2, h3, h4, h5⟩ := h
  exact ⟨⟨g.wf, g.le, fun r hr => g.lt r (hlive r hr), fun r hr => g.free r (hlive r hr),
    fun r hr => g.out r (hlive r hr), g.parent, g.children, g.data, g.bpar⟩, h1, h2, h3, h4,
    fun x t hx => by cases hx⟩

/-- The node in hand is not the root. -/
theorem hand_ne (h : Rep A0 b F A slots σ hand) {x : Nat} {t : Html} (hx : hand = some (x, t)) :
    x ≠ b := by
  rintro rfl
  exact (h.held x t hx).2 0 h.filled h.zero

/-- A change at the node at a path; the node in hand may be used for it. -/
theorem write (hF : Fence A0 b F) (h : Rep A0 b F A slots σ hand) {path : Path} {u u' : Html}
    (hp : σ.find path = some u) {p : Nat} (hn : navigate A slots path = .ok p)
    (hc : Changed A A' p) (hu : A'.tree p = u')
    (hnew : ∀ m ∈ A'.children p, m ∈ A.children p ∨ (∃ t, hand = some (m, t)) ∨ A.next ≤ m) :
    Rep A0 b F A' slots (σ.write path u') none := by
  obtain ⟨s, q, t, r, p', rfl, hs, hr, ht, hg, hl, hn', _, ha, hlt⟩ := h.find hF hp
  rw [hn] at hn'; cases hn'
  have hlr : Live slots σ hand r := live_slot hs hr
  have hwr : ∀ i, (σ.write (s :: q) u') i ≠ none ↔ σ i ≠ none := by
    intro i
    simp only [Store.write, Store.slot]
    by_cases e : i = s
    · subst e; simp [hs]
    · simp [e]
  have hlive : ∀ x, Live slots (σ.write (s :: q) u') none x → Live slots σ hand x ∧
      ∀ t, hand ≠ some (x, t) := by
    rintro x (⟨i, h1, h2⟩ | ⟨t, h1⟩)
    · refine ⟨.inl ⟨i, (hwr i).1 h1, h2⟩, fun t e => ?_⟩
      exact (h.held x t e).2 i ((hwr i).1 h1) h2
    · cases h1
  refine ⟨h.grove.change hF hlr ha hc ?_ ?_, ?_, ?_, h.zero, (hwr 0).2 h.filled, ?_⟩
  · intro m hm
    rcases hnew m hm with h1 | ⟨t, h1⟩ | h1
    · exact .inl h1
    · exact .inr (.inl ⟨.inr ⟨t, h1⟩, h.hand_ne h1⟩)
    · exact .inr (.inr h1)
  · intro x hx
    obtain ⟨h1, h2⟩ := hlive x hx
    have hxlt := h.grove.lt x h1
    refine ⟨Nat.lt_of_lt_of_le hxlt hc.le, h.grove.out x h1, fun hxb => ?_⟩
    have hfree := h.grove.free x h1 hxb
    cases e : A'.parent x with
    | none => rfl
    | some a =>
      exfalso
      rw [← hc.wf.mem_iff] at e
      by_cases hap : a = p
      · subst hap
        rcases hnew x e with h3 | ⟨t, h3⟩ | h3
        · rw [h.grove.wf.mem_iff, hfree] at h3; cases h3
        · exact h2 t h3
        · omega
      · rcases Nat.lt_or_ge a A.next with h6 | h6
        · rw [hc.children a h6 hap, h.grove.wf.mem_iff, hfree] at e; cases e
        · have := hc.fresh x a h6 e; omega
  · intro i v hi
    simp only [Store.write, Store.slot] at hi
    by_cases e : i = s
    · subst e
      rw [if_pos rfl, hs] at hi
      refine ⟨r, hr, ?_⟩
      rw [hc.tree_put h.grove.wf (h.grove.lt r hlr) (by rw [ht]; exact hg) hl, hu, ht]
      simpa using hi
    · rw [if_neg e] at hi
      obtain ⟨r', hr', ht'⟩ := h.root i v hi
      refine ⟨r', hr', ?_⟩
      have hl' : Live slots σ hand r' := live_slot hi hr'
      rw [hc.tree_other h.grove.wf (h.grove.lt r' hl'), ht']
      intro ha'
      have := h.grove.unique hF hlr hl' ha ha'
      subst this
      exact e (h.inj i s (by rw [hi]; simp) (by rw [hs]; simp) (by rw [hr, hr']))
  · intro i j hi hj e
    exact h.inj i j ((hwr i).1 hi) ((hwr j).1 hj) e
  · intro x t hx; cases hx

/-- A node that is below no live node and has no parent is taken in hand. -/
theorem grab (h : Rep A0 b F A slots σ none) {x : Nat} {t : Html} (hx : x < A.next)
    (hp : A.parent x = none) (hF : ¬ F x) (ht : A.tree x = t)
    (hs : ∀ s, σ s ≠ none → slots s ≠ some x) : Rep A0 b F A slots σ (some (x, t)) := by
  have hlive : ∀ r, Live slots σ (some (x, t)) r → Live slots σ none r ∨ r = x := by
    rintro r (h1 | ⟨t', h1⟩)
    · exact .inl (.inl h1)
    · cases h1; exact .inr rfl
  obtain ⟨g, h1, h2, h3, h4, h5⟩ := h
  refine ⟨⟨g.wf, g.le, ?_, ?_, ?_, g.parent, g.children, g.data, g.bpar⟩, h1, h2, h3, h4, ?_⟩
  · intro r hr
    rcases hlive r hr with h6 | rfl
    · exact g.lt r h6
    · exact hx
  · intro r hr hrb
    rcases hlive r hr with h6 | rfl
    · exact g.free r h6 hrb
    · exact hp
  · intro r hr
    rcases hlive r hr with h6 | rfl
    · exact g.out r h6
    · exact hF
  · intro x' t' e; cases e; exact ⟨ht, hs⟩

/-- The node in hand goes to a slot. -/
theorem store {x : Nat} {t : Html} (h : Rep A0 b F A slots σ (some (x, t))) {k : Nat} (hk : k ≠ 0) :
    Rep A0 b F A (Arena.upd slots k (some x)) (σ.slot k (some t)) none := by
  have hlive : ∀ r, Live (Arena.upd slots k (some x)) (σ.slot k (some t)) none r →
      Live slots σ (some (x, t)) r := by
    rintro r (⟨i, h1, h2⟩ | ⟨t, h1⟩)
    · rw [Arena.upd_apply] at h2
      simp only [Store.slot] at h1
      by_cases e : i = k
      · rw [if_pos e] at h2; cases h2; exact .inr ⟨t, rfl⟩
      · rw [if_neg e] at h1 h2; exact .inl ⟨i, h1, h2⟩
    · cases h1
  obtain ⟨g, h1, h2, h3, h4, h5⟩ := h
  obtain ⟨h6, h7⟩ := h5 x t rfl
  refine ⟨⟨g.wf, g.le, fun r hr => g.lt r (hlive r hr), fun r hr => g.free r (hlive r hr),
    fun r hr => g.out r (hlive r hr), g.parent, g.children, g.data, g.bpar⟩, ?_, ?_, ?_, ?_,
    fun x t hx => by cases hx⟩
  · intro i v hi
    rw [Arena.upd_apply]
    simp only [Store.slot] at hi
    by_cases e : i = k
    · rw [if_pos e] at hi ⊢; cases hi; exact ⟨x, rfl, h6⟩
    · rw [if_neg e] at hi ⊢; exact h1 i v hi
  · intro i j hi hj e
    simp only [Store.slot] at hi hj
    rw [Arena.upd_apply, Arena.upd_apply] at e
    by_cases ei : i = k <;> by_cases ej : j = k
    · rw [ei, ej]
    · rw [if_pos ei, if_neg ej] at e
      rw [if_neg ej] at hj
      exact absurd e.symm (h7 j hj)
    · rw [if_neg ei, if_pos ej] at e
      rw [if_neg ei] at hi
      exact absurd e (h7 i hi)
    · rw [if_neg ei, if_neg ej] at e
      rw [if_neg ei] at hi; rw [if_neg ej] at hj
      exact h2 i j hi hj e
  · rw [Arena.upd_apply, if_neg (Ne.symm hk)]; exact h3
  · simp only [Store.slot]; rw [if_neg (Ne.symm hk)]; exact h4

/-- The tree of a slot is taken in hand. -/
theorem takeSlot (h : Rep A0 b F A slots σ none) {s x : Nat} {t : Html} (h0 : s ≠ 0)
    (hs : σ s = some t) (hx : slots s = some x) :
    Rep A0 b F A slots (σ.slot s none) (some (x, t)) := by
  have hsub : ∀ i, (σ.slot s none) i ≠ none → σ i ≠ none ∧ i ≠ s := by
    intro i hi
    simp only [Store.slot] at hi
    by_cases e : i = s
    · rw [if_pos e] at hi; exact absurd rfl hi
    · rw [if_neg e] at hi; exact ⟨hi, e⟩
  have hs' : σ s ≠ none := by rw [hs]; simp
  have hlive : ∀ r, Live slots (σ.slot s none) (some (x, t)) r → Live slots σ none r := by
    rintro r (⟨i, h1, h2⟩ | ⟨t, h1⟩)
    · exact .inl ⟨i, (hsub i h1).1, h2⟩
    · cases h1; exact .inl ⟨s, hs', hx⟩
  obtain ⟨g, h1, h2, h3, h4, h5⟩ := h
  refine ⟨⟨g.wf, g.le, fun r hr => g.lt r (hlive r hr), fun r hr => g.free r (hlive r hr),
    fun r hr => g.out r (hlive r hr), g.parent, g.children, g.data, g.bpar⟩, ?_, ?_, h3, ?_, ?_⟩
  · intro i v hi
    simp only [Store.slot] at hi
    by_cases e : i = s
    · rw [if_pos e] at hi; cases hi
    · rw [if_neg e] at hi; exact h1 i v hi
  · intro i j hi hj e
    exact h2 i j (hsub i hi).1 (hsub j hj).1 e
  · simp only [Store.slot]; rw [if_neg (Ne.symm h0)]; exact h4
  · intro x' t' e
    cases e
    obtain ⟨r, hr, ht⟩ := h1 s t hs
    rw [hx] at hr; cases hr
    refine ⟨ht, fun i hi e => ?_⟩
    exact (hsub i hi).2 (h2 i s (hsub i hi).1 hs' (by rw [e, hx]))

/-- New nodes. -/
theorem grow (hF : Fence A0 b F) (h : Rep A0 b F A slots σ hand) (hg : Grows A A') :
    Rep A0 b F A' slots σ hand := by
  have tree : ∀ x, x < A.next → A'.tree x = A.tree x := fun x hx =>
    Arena.tree_congr h.grove.wf hg.wf x fun m hm =>
      have := lt_of_anc h.grove.wf hx hm
      ⟨hg.children m this, hg.data m this⟩
  have ltF : ∀ m, F m → m < A.next := fun m hm => Nat.lt_of_lt_of_le (hF.lt m hm) h.grove.le
  obtain ⟨g, h1, h2, h3, h4, h5⟩ := h
  refine ⟨⟨hg.wf, Nat.le_trans g.le hg.le, fun r hr => Nat.lt_of_lt_of_le (g.lt r hr) hg.le, ?_,
    g.out, ?_, ?_, ?_, ?_⟩, ?_, h2, h3, h4, ?_⟩
  · intro r hr hb; rw [hg.parent r (g.lt r hr)]; exact g.free r hr hb
  · intro m hm; rw [hg.parent m (ltF m hm)]; exact g.parent m hm
  · intro m hm; rw [hg.children m (ltF m hm)]; exact g.children m hm
  · intro m hm; rw [hg.data m (ltF m hm)]; exact g.data m hm
  · rw [hg.parent b (Nat.lt_of_lt_of_le hF.blt g.le)]; exact g.bpar
  · intro s t hs
    obtain ⟨r, hr, ht⟩ := h1 s t hs
    exact ⟨r, hr, by rw [tree r (g.lt r (live_slot hs hr)), ht]⟩
  · intro x t hx
    exact ⟨by rw [tree x (g.lt x (.inr ⟨t, hx⟩)), (h5 x t hx).1], (h5 x t hx).2⟩

/-- A new node is taken in hand. -/
theorem grabNew (hF : Fence A0 b F) (h : Rep A0 b F A slots σ none) (hg : Grows A A') {x : Nat}
    {t : Html} (hx : A.next ≤ x) (hx' : x < A'.next) (hp : A'.parent x = none)
    (ht : A'.tree x = t) : Rep A0 b F A' slots σ (some (x, t)) := by
  refine (h.grow hF hg).grab hx' hp ?_ ht ?_
  · intro hm
    have := hF.lt x hm
    have := h.grove.le
    omega
  · intro s hs e
    have := h.grove.lt x (.inl ⟨s, hs, e⟩)
    omega

end Rep
end Hotmeal
