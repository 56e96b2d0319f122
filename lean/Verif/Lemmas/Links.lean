import Verif.Lemmas.ArenaOps
import Verif.Model.Dom
import Verif.Props.Slots

set_option autoImplicit false
set_option linter.unusedSectionVars false

/-!
# Links under arbitrary patches

`Arena.Linked` is well-formedness without the absence of cycles: parent and child links agree. It is kept by
every operation of the arena, also by those that close a cycle. `Fenced` says in addition that nothing outside
the subtree of `b` has been touched.
-/

namespace Hotmeal
namespace Arena

variable {α : Type}

/-- Parent and child links agree and no child list has duplicates. -/
structure Linked (A : Arena α) : Prop where
  lt_of_parent : ∀ c p, A.parent c = some p → c < A.next ∧ p < A.next
  mem_iff : ∀ c p, c ∈ A.children p ↔ A.parent c = some p
  nodup : ∀ p, (A.children p).Nodup

theorem WF.linked {A : Arena α} (h : A.WF) : A.Linked := ⟨h.lt_of_parent, h.mem_iff, h.nodup⟩

theorem Linked.newNode {A : Arena α} (h : A.Linked) (d : α) : (A.newNode d).1.Linked where
  lt_of_parent := by
    intro c p hp
    simp only [Arena.newNode, upd_apply] at hp ⊢
    split at hp
    · cases hp
    · have := h.lt_of_parent c p hp; omega
  mem_iff := by
    intro c p
    simp only [Arena.newNode, upd_apply]
    split
    · next hp =>
      subst hp
      constructor
      · simp
      · intro hc
        split at hc
        · cases hc
        · have := (h.lt_of_parent _ _ hc).2; omega
    · split
      · next hc =>
        subst hc
        constructor
        · intro hm
          have := (h.lt_of_parent _ _ ((h.mem_iff _ _).1 hm)).1; omega
        · simp
      · exact h.mem_iff c p
  nodup := by
    intro p
    simp only [Arena.newNode, upd_apply]
    split
    · simp
    · exact h.nodup p

theorem Linked.detach_children {A : Arena α} (h : A.Linked) (n p : Nat) :
    (A.detach n).children p = (A.children p).filter (· ≠ n) := by
  unfold Arena.detach
  split
  · next hn =>
    rw [List.filter_eq_self.2]
    intro a ha
    simp only [decide_eq_true_eq]
    rintro rfl
    rw [(h.mem_iff a p).1 ha] at hn; cases hn
  · next q hq =>
    simp only [upd_apply]
    split
    · next e =>
      subst e
      rw [(h.nodup p).erase_eq_filter]
      apply List.filter_congr
      intro x _
      by_cases hx : x = n <;> simp [hx]
    · next e =>
      rw [List.filter_eq_self.2]
      intro a ha
      simp only [decide_eq_true_eq]
      rintro rfl
      rw [(h.mem_iff a p).1 ha] at hq
      exact e (Option.some.inj hq)

theorem Linked.detach {A : Arena α} (h : A.Linked) (n : Nat) : (A.detach n).Linked where
  lt_of_parent := by
    intro c p hp
    rw [detach_parent] at hp
    rw [detach_next]
    split at hp
    · cases hp
    · exact h.lt_of_parent c p hp
  mem_iff := by
    intro c p
    rw [h.detach_children, detach_parent, List.mem_filter, h.mem_iff]
    by_cases hc : c = n <;> simp [hc]
  nodup := by
    intro p
    rw [h.detach_children]
    exact (h.nodup p).filter _

/-- Linking a parentless node anywhere keeps the links consistent, also when it closes a cycle. -/
theorem Linked.link {A : Arena α} (h : A.Linked) {p c : Nat} (hp : p < A.next) (hc : c < A.next)
    (hcp : A.parent c = none) (l : List Nat) (hl : l.Nodup)
    (hm : ∀ x, x ∈ l ↔ x ∈ A.children p ∨ x = c) :
    ({ A with parent := upd A.parent c (some p), children := upd A.children p l } : Arena α).Linked where
  lt_of_parent := by
    intro x q hx
    simp only [upd_apply] at hx ⊢
    split at hx
    · next e => subst e; cases hx; exact ⟨hc, hp⟩
    · exact h.lt_of_parent x q hx
  mem_iff := by
    intro x q
    simp only [upd_apply]
    by_cases hq : q = p
    · subst hq
      simp only [if_true, hm, h.mem_iff]
      by_cases hx : x = c
      · simp [hx]
      · simp [hx]
    · simp only [if_neg hq, h.mem_iff]
      by_cases hx : x = c
      · subst hx
        simp only [if_true, hcp]
        constructor
        · intro h; cases h
        · intro h; exact absurd (Option.some.inj h).symm hq
      · simp [hx]
  nodup := by
    intro q
    simp only [upd_apply]
    split
    · exact hl
    · exact h.nodup q

end Arena

variable {D0 A : Arena NodeData} {b : Nat}

/-- A node of `D0` outside the subtree of `b`. -/
def Beyond (D0 : Arena NodeData) (b n : Nat) : Prop := n < D0.next ∧ ¬ D0.Anc b n

/-- `A` has come from `D0` by changes in the subtree of `b`, the place of `b` itself included. -/
structure Fenced (D0 : Arena NodeData) (b : Nat) (A : Arena NodeData) : Prop where
  linked : A.Linked
  le : D0.next ≤ A.next
  parent : ∀ n, Beyond D0 b n → A.parent n = D0.parent n
  data : ∀ n, Beyond D0 b n → A.data n = D0.data n
  kids : ∀ n, Beyond D0 b n → D0.parent b ≠ some n → A.children n = D0.children n
  closed : ∀ n p, A.parent n = some p → ¬ Beyond D0 b p → ¬ Beyond D0 b n

/-- A node of `A` that is not one of the nodes outside. -/
def Within (D0 : Arena NodeData) (b : Nat) (A : Arena NodeData) (n : Nat) : Prop :=
  n < A.next ∧ ¬ Beyond D0 b n

/-- All slots hold nodes within. -/
def SlotsWithin (D0 : Arena NodeData) (b : Nat) (A : Arena NodeData) (s : Slots) : Prop :=
  ∀ k n, s k = some n → Within D0 b A n

namespace Fenced

theorem refl (hD : D0.WF) : Fenced D0 b D0 where
  linked := hD.linked
  le := Nat.le_refl _
  parent := fun _ _ => rfl
  data := fun _ _ => rfl
  kids := fun _ _ _ => rfl
  closed := by
    rintro n p hp h1 ⟨h2, h3⟩
    refine h3 (.step hp ?_)
    by_cases e : D0.Anc b p
    · exact e
    · exact absurd ⟨(hD.lt_of_parent _ _ hp).2, e⟩ h1

/-- The parent of a node within is within, unless it is the place of `b`. -/
theorem up (hD : D0.WF) (h : Fenced D0 b A) {n p : Nat} (hn : ¬ Beyond D0 b n) (hp : A.parent n = some p)
    (hpb : Beyond D0 b p) : D0.parent b = some p := by
  by_cases e : D0.parent b = some p
  · exact e
  · have h1 := (h.linked.mem_iff _ _).2 hp
    rw [h.kids p hpb e, hD.mem_iff] at h1
    have h2 : D0.Anc b n := by
      by_cases h2 : D0.Anc b n
      · exact h2
      · exact absurd ⟨(hD.lt_of_parent _ _ h1).1, h2⟩ hn
    rcases h2.cases' with rfl | ⟨q, hq, hq'⟩
    · exact absurd h1 e
    · rw [h1] at hq; cases hq
      exact absurd hq' hpb.2

theorem newNode (h : Fenced D0 b A) (d : NodeData) : Fenced D0 b (A.newNode d).1 ∧
    Within D0 b (A.newNode d).1 A.next ∧ (A.newNode d).1.parent A.next = none ∧
    ∀ n, Within D0 b A n → Within D0 b (A.newNode d).1 n := by
  have hb : ∀ n, Beyond D0 b n → n ≠ A.next := fun n hn => by have := hn.1; have := h.le; omega
  refine ⟨⟨h.linked.newNode d, ?_, ?_, ?_, ?_, ?_⟩, ⟨by simp [Arena.newNode], fun hn => hb _ hn rfl⟩,
    by simp [Arena.newNode, Arena.upd], fun n hn => ⟨by simp [Arena.newNode]; have := hn.1; omega, hn.2⟩⟩
  · have := h.le; simp [Arena.newNode]; omega
  · intro n hn
    simp only [Arena.newNode, Arena.upd_apply, if_neg (hb n hn)]; exact h.parent n hn
  · intro n hn
    simp only [Arena.newNode, Arena.upd_apply, if_neg (hb n hn)]; exact h.data n hn
  · intro n hn
    simp only [Arena.newNode, Arena.upd_apply, if_neg (hb n hn)]; exact h.kids n hn
  · intro n p hp
    simp only [Arena.newNode, Arena.upd_apply] at hp
    split at hp
    · cases hp
    · exact h.closed n p hp

theorem setData (h : Fenced D0 b A) {n : Nat} (hn : ¬ Beyond D0 b n) (d : NodeData) :
    Fenced D0 b (A.setData n d) :=
  ⟨⟨h.linked.lt_of_parent, h.linked.mem_iff, h.linked.nodup⟩, h.le, h.parent, fun m hm => by
    simp only [Arena.setData, Arena.upd_apply]
    rw [if_neg (by rintro rfl; exact hn hm)]; exact h.data m hm, h.kids, h.closed⟩

theorem detach (hD : D0.WF) (h : Fenced D0 b A) {n : Nat} (hn : ¬ Beyond D0 b n) :
    Fenced D0 b (A.detach n) := by
  refine ⟨h.linked.detach n, by rw [Arena.detach_next]; exact h.le, ?_, ?_, ?_, ?_⟩
  · intro m hm
    rw [Arena.detach_parent, if_neg (by rintro rfl; exact hn hm)]; exact h.parent m hm
  · intro m hm; rw [Arena.detach_data]; exact h.data m hm
  · intro m hm hb
    rw [h.linked.detach_children, List.filter_eq_self.2, h.kids m hm hb]
    intro a ha
    simp only [decide_eq_true_eq]
    rintro rfl
    exact hb (h.up hD hn ((h.linked.mem_iff _ _).1 ha) hm)
  · intro m p hp
    rw [Arena.detach_parent] at hp
    split at hp
    · cases hp
    · exact h.closed m p hp

/-- Linking a node within. -/
theorem link (h : Fenced D0 b A) {p c : Nat} (hp : p < A.next)
    (hpb : Beyond D0 b p → D0.parent b = some p) (hc : Within D0 b A c)
    (hcp : A.parent c = none) (l : List Nat) (hl : l.Nodup)
    (hm : ∀ x, x ∈ l ↔ x ∈ A.children p ∨ x = c) :
    Fenced D0 b { A with parent := Arena.upd A.parent c (some p), children := Arena.upd A.children p l } := by
  refine ⟨h.linked.link hp hc.1 hcp l hl hm, h.le, ?_, h.data, ?_, ?_⟩
  · intro m hm'
    simp only [Arena.upd_apply]
    rw [if_neg (by rintro rfl; exact hc.2 hm')]; exact h.parent m hm'
  · intro m hm' hb
    simp only [Arena.upd_apply]
    rw [if_neg (by rintro rfl; exact hb (hpb hm'))]; exact h.kids m hm' hb
  · intro m q hq
    simp only [Arena.upd_apply] at hq
    split at hq
    · next e => subst e; exact fun _ => hc.2
    · exact h.closed m q hq

theorem appendRaw (hD : D0.WF) (h : Fenced D0 b A) {p c : Nat} (hp : Within D0 b A p)
    (hc : Within D0 b A c) : Fenced D0 b (A.appendRaw p c) := by
  have hd := h.detach hD hc.2
  unfold Arena.appendRaw
  refine hd.link (by rw [Arena.detach_next]; exact hp.1) (fun hb => absurd hb hp.2)
    ⟨by rw [Arena.detach_next]; exact hc.1, hc.2⟩ (by simp [Arena.detach_parent]) _ ?_ (by intro x; simp)
  rw [List.nodup_append]
  refine ⟨hd.linked.nodup p, by simp, ?_⟩
  intro a ha x hx
  simp at hx; subst hx
  rintro rfl
  rw [h.linked.detach_children] at ha
  simp at ha

theorem append (hD : D0.WF) (h : Fenced D0 b A) {p c : Nat} (hp : Within D0 b A p)
    (hc : Within D0 b A c) {A' : Arena NodeData} (e : A.append p c = .ok A') :
    Fenced D0 b A' ∧ A'.next = A.next := by
  unfold Arena.append at e
  split at e
  · cases e
  · cases e; exact ⟨h.appendRaw hD hp hc, by simp [Arena.appendRaw, Arena.detach_next]⟩

theorem insertBefore (hD : D0.WF) (h : Fenced D0 b A) {s x : Nat} (hs : ¬ Beyond D0 b s)
    (hx : Within D0 b A x) {A' : Arena NodeData} (e : A.insertBefore s x = .ok A') :
    Fenced D0 b A' ∧ A'.next = A.next := by
  unfold Arena.insertBefore at e
  split at e
  · cases e
  · have hd := h.detach hD hx.2
    simp only at e
    split at e
    · cases e; exact ⟨hd, by rw [Arena.detach_next]⟩
    · next p hp =>
      split at e
      · cases e
      · cases e
        have hsm : s ∈ (A.detach x).children p := (hd.linked.mem_iff _ _).2 hp
        refine ⟨hd.link (hd.linked.lt_of_parent _ _ hp).2 (fun hb => hd.up hD hs hp hb)
          ⟨by rw [Arena.detach_next]; exact hx.1, hx.2⟩ (by simp [Arena.detach_parent]) _ ?_
          fun y => Arena.insBefore_mem hsm y, by simp [Arena.detach_next]⟩
        apply Arena.insBefore_nodup _ (hd.linked.nodup p)
        rw [h.linked.detach_children]; simp

theorem addChild (hD : D0.WF) (h : Fenced D0 b A) {p : Nat} (hp : Within D0 b A p) (d : NodeData) :
    Fenced D0 b (A.addChild p d).1 ∧ (A.addChild p d).1.next = A.next + 1 := by
  obtain ⟨h1, h2, _, h4⟩ := h.newNode d
  exact ⟨h1.appendRaw hD (h4 p hp) h2, Arena.addChild_next _ _ _⟩

theorem fillGaps (hD : D0.WF) {p : Nat} : ∀ (k : Nat) {A : Arena NodeData}, Fenced D0 b A → Within D0 b A p →
    Fenced D0 b (Hotmeal.fillGaps A p k) ∧ A.next ≤ (Hotmeal.fillGaps A p k).next
  | 0, _, h, _ => ⟨h, Nat.le_refl _⟩
  | k + 1, A, h, hp => by
    obtain ⟨h1, h2⟩ := h.addChild hD hp Document.emptyText
    obtain ⟨h3, h4⟩ := fillGaps hD k h1 ⟨by have := hp.1; omega, hp.2⟩
    exact ⟨h3, by unfold Hotmeal.fillGaps; omega⟩

/-- A child of a node within. -/
theorem child (h : Fenced D0 b A) {p c : Nat} (hp : ¬ Beyond D0 b p) (hc : c ∈ A.children p) :
    Within D0 b A c :=
  have h1 := (h.linked.mem_iff _ _).1 hc
  ⟨(h.linked.lt_of_parent _ _ h1).1, h.closed _ _ h1 hp⟩

theorem navLoop (h : Fenced D0 b A) : ∀ (q : List Nat) {r n : Nat}, Within D0 b A r →
    Hotmeal.navLoop A r q = .ok n → Within D0 b A n
  | [], r, n, hr, e => by cases e; exact hr
  | i :: q, r, n, hr, e => by
    unfold Hotmeal.navLoop at e
    split at e
    · cases e
    · next c hc => exact navLoop h q (h.child hr.2 (List.mem_of_getElem? hc)) e

theorem navigate (h : Fenced D0 b A) {s : Slots} (hs : SlotsWithin D0 b A s) {q : Path} {n : Nat}
    (e : Hotmeal.navigate A s q = .ok n) : Within D0 b A n := by
  unfold Hotmeal.navigate at e
  split at e
  · cases e
  · split at e
    · cases e
    · next r hr => exact h.navLoop _ (hs _ _ hr) e

theorem slotsWithin_mono {A A' : Arena NodeData} {s : Slots} (hs : SlotsWithin D0 b A s)
    (hle : A.next ≤ A'.next) : SlotsWithin D0 b A' s :=
  fun k n hk => ⟨Nat.lt_of_lt_of_le (hs k n hk).1 hle, (hs k n hk).2⟩

theorem insertAtPosition (hD : D0.WF) (h : Fenced D0 b A) {p pos n : Nat} (hp : Within D0 b A p)
    (hn : Within D0 b A n) {A' : Arena NodeData} (e : Hotmeal.insertAtPosition A p pos n = .ok A') :
    Fenced D0 b A' ∧ A.next ≤ A'.next := by
  unfold Hotmeal.insertAtPosition at e
  obtain ⟨h1, h2⟩ := fillGaps hD (pos - (A.children p).length) h hp
  have hp1 : Within D0 b _ p := ⟨Nat.lt_of_lt_of_le hp.1 h2, hp.2⟩
  have hn1 : Within D0 b _ n := ⟨Nat.lt_of_lt_of_le hn.1 h2, hn.2⟩
  simp only at e
  split at e
  · obtain ⟨h3, h4⟩ := h1.append hD hp1 hn1 e
    exact ⟨h3, by omega⟩
  · next sib hsib =>
    obtain ⟨h3, h4⟩ := h1.insertBefore hD (h1.child hp.2 (List.mem_of_getElem? hsib)).2 hn1 e
    exact ⟨h3, by omega⟩

theorem displace (hD : D0.WF) (h : Fenced D0 b A) {s : Slots} (hs : SlotsWithin D0 b A s) {p : Nat}
    (hp : Within D0 b A p) (pos : Nat) (slot : Option Nat) :
    Fenced D0 b (Hotmeal.displace A s p pos slot).1 ∧
    (Hotmeal.displace A s p pos slot).1.next = A.next ∧
    SlotsWithin D0 b A (Hotmeal.displace A s p pos slot).2 := by
  unfold Hotmeal.displace
  split
  · exact ⟨h, rfl, hs⟩
  · next k =>
    split
    · exact ⟨h, rfl, hs⟩
    · next d hd =>
      have hw := h.child hp.2 (List.mem_of_getElem? hd)
      refine ⟨h.detach hD hw.2, Arena.detach_next _ _, ?_⟩
      intro j n hj
      simp only [Arena.upd_apply] at hj
      split at hj
      · cases hj; exact hw
      · exact hs j n hj

theorem insertAt (hD : D0.WF) (h : Fenced D0 b A) {s : Slots} (hs : SlotsWithin D0 b A s) {q : Path} {n : Nat}
    (hn : Within D0 b A n) {slot : Option Nat} {A' : Arena NodeData} {s' : Slots}
    (e : Hotmeal.insertAt A s q n slot = .ok (A', s')) :
    Fenced D0 b A' ∧ A.next ≤ A'.next ∧ SlotsWithin D0 b A' s' := by
  unfold Hotmeal.insertAt at e
  obtain ⟨⟨p, pos⟩, h1, e⟩ := res_bind e
  obtain ⟨A2, h2, e⟩ := res_bind e
  cases e
  have hp : Within D0 b A p := by
    unfold slotParent at h1
    split at h1
    · cases h1
    · split at h1
      · cases h1
      · obtain ⟨p', h3, h1⟩ := res_bind h1
        cases h1
        exact h.navigate hs h3
  obtain ⟨h3, h4, h5⟩ := h.displace hD hs hp pos slot
  obtain ⟨h6, h7⟩ := h3.insertAtPosition hD (p := p) (n := n) ⟨by rw [h4]; exact hp.1, hp.2⟩
    ⟨by rw [h4]; exact hn.1, hn.2⟩ h2
  exact ⟨h6, by omega, slotsWithin_mono h5 (by omega)⟩

theorem replaceByEmpty (hD : D0.WF) (h : Fenced D0 b A) {n : Nat} (hn : Within D0 b A n)
    {A' : Arena NodeData} (e : Hotmeal.replaceByEmpty A n = .ok A') :
    Fenced D0 b A' ∧ A.next ≤ A'.next := by
  unfold Hotmeal.replaceByEmpty at e
  obtain ⟨h1, h2, _, h4⟩ := h.newNode Document.emptyText
  obtain ⟨A2, h3, e⟩ := res_bind e
  cases e
  obtain ⟨h5, h6⟩ := h1.insertBefore hD hn.2 h2 h3
  refine ⟨h5.detach hD hn.2, ?_⟩
  rw [Arena.detach_next, h6]; simp [Arena.newNode]

theorem detachAll (hD : D0.WF) : ∀ (l : List Nat) {A : Arena NodeData}, Fenced D0 b A →
    (∀ n ∈ l, ¬ Beyond D0 b n) → Fenced D0 b (Hotmeal.detachAll A l) ∧ (Hotmeal.detachAll A l).next = A.next
  | [], _, h, _ => ⟨h, rfl⟩
  | n :: l, A, h, hl => by
    obtain ⟨h1, h2⟩ := detachAll hD l (h.detach hD (hl n (by simp))) fun m hm => hl m (by simp [hm])
    refine ⟨h1, ?_⟩
    show (Hotmeal.detachAll (A.detach n) l).next = _
    rw [h2, Arena.detach_next]

mutual
theorem createInsertContent (hD : D0.WF) : ∀ (c : InsertContent) {A : Arena NodeData}, Fenced D0 b A →
    ∀ {A' : Arena NodeData} {n : Nat}, Hotmeal.createInsertContent A c = .ok (A', n) →
    Fenced D0 b A' ∧ A.next ≤ A'.next ∧ Within D0 b A' n
  | .element tag attrs cs, A, h, A', n, e => by
    unfold Hotmeal.createInsertContent at e
    obtain ⟨h1, h2, _, _⟩ := h.newNode ⟨.element tag attrs, .html⟩
    obtain ⟨A2, h3, e⟩ := res_bind e
    cases e
    obtain ⟨h4, h5⟩ := appendInsertContents hD cs h1 h2 h3
    have : A.next + 1 ≤ A'.next := h5
    exact ⟨h4, by omega, by show A.next < A'.next; omega, h2.2⟩
  | .text t, A, h, A', n, e => by
    unfold Hotmeal.createInsertContent at e
    cases e
    obtain ⟨h1, h2, _, _⟩ := h.newNode ⟨.text t, .html⟩
    exact ⟨h1, by simp, h2⟩
  | .comment t, A, h, A', n, e => by
    unfold Hotmeal.createInsertContent at e
    cases e
    obtain ⟨h1, h2, _, _⟩ := h.newNode ⟨.comment t, .html⟩
    exact ⟨h1, by simp, h2⟩
theorem appendInsertContents (hD : D0.WF) : ∀ (cs : List InsertContent) {A : Arena NodeData}, Fenced D0 b A →
    ∀ {p : Nat}, Within D0 b A p → ∀ {A' : Arena NodeData}, Hotmeal.appendInsertContents A p cs = .ok A' →
    Fenced D0 b A' ∧ A.next ≤ A'.next
  | [], A, h, p, _, A', e => by
    unfold Hotmeal.appendInsertContents at e
    cases e; exact ⟨h, Nat.le_refl _⟩
  | c :: cs, A, h, p, hp, A', e => by
    unfold Hotmeal.appendInsertContents at e
    obtain ⟨⟨A2, m⟩, h1, e⟩ := res_bind e
    obtain ⟨A3, h2, e⟩ := res_bind e
    obtain ⟨h3, h4, h5⟩ := createInsertContent hD c h h1
    have hp2 : Within D0 b A2 p := ⟨Nat.lt_of_lt_of_le hp.1 h4, hp.2⟩
    obtain ⟨h6, h7⟩ := h3.append hD hp2 h5 h2
    obtain ⟨h8, h9⟩ := appendInsertContents hD cs h6 ⟨by rw [h7]; exact hp2.1, hp.2⟩ e
    exact ⟨h8, by omega⟩
end

/-- What a copying function does. -/
def Copies (D0 : Arena NodeData) (b : Nat) (r : Arena NodeData → Res (Arena NodeData × Nat)) : Prop :=
  ∀ A, Fenced D0 b A → ∀ A' n, r A = .ok (A', n) → Fenced D0 b A' ∧ A.next ≤ A'.next ∧ Within D0 b A' n

theorem copyAll (hD : D0.WF) {m : Nat} : ∀ (rs : List (Arena NodeData → Res (Arena NodeData × Nat))),
    (∀ r ∈ rs, Copies D0 b r) → ∀ A, Fenced D0 b A → Within D0 b A m → ∀ A',
    rs.foldlM (fun A r => do
      let (A, c) ← r A
      A.append m c) A = Except.ok (ε := Err) A' → Fenced D0 b A' ∧ A.next ≤ A'.next
  | [], _, A, h, _, A', e => by cases e; exact ⟨h, Nat.le_refl _⟩
  | r :: rs, hr, A, h, hm, A', e => by
    rw [List.foldlM_cons] at e
    obtain ⟨A2, h1, e⟩ := res_bind e
    obtain ⟨⟨A3, c⟩, h2, h1⟩ := res_bind h1
    obtain ⟨h3, h4, h5⟩ := hr r (by simp) A h A3 c h2
    have hm3 : Within D0 b A3 m := ⟨Nat.lt_of_lt_of_le hm.1 h4, hm.2⟩
    obtain ⟨h6, h7⟩ := h3.append hD hm3 h5 h1
    obtain ⟨h8, h9⟩ := copyAll hD rs (fun r h => hr r (by simp [h])) A2 h6 ⟨by rw [h7]; exact hm3.1, hm.2⟩ A' e
    exact ⟨h8, by omega⟩

theorem cloneSubtree (hD : D0.WF) (src : Arena NodeData) (n : Nat) :
    Copies D0 b (Hotmeal.cloneSubtree src n) := by
  unfold Hotmeal.cloneSubtree Arena.fold
  generalize src.next = k
  have step : ∀ (n : Nat) (rs : List (Arena NodeData → Res (Arena NodeData × Nat))),
      (∀ r ∈ rs, Copies D0 b r) → Copies D0 b (fun A =>
        let (A, m) := A.newNode (src.data n)
        do
          let A ← rs.foldlM (fun A r => do
            let (A, c) ← r A
            A.append m c) A
          .ok (A, m)) := by
    intro n rs hrs A h A' m e
    obtain ⟨h1, h2, _, _⟩ := h.newNode (src.data n)
    obtain ⟨A2, h3, e⟩ := res_bind e
    cases e
    obtain ⟨h4, h5⟩ := copyAll hD rs hrs _ h1 h2 A' h3
    have : A.next + 1 ≤ A'.next := h5
    exact ⟨h4, by omega, by show A.next < A'.next; omega, h2.2⟩
  induction k generalizing n with
  | zero => exact step n [] (by simp)
  | succ k ih =>
    refine step n _ fun r hr => ?_
    obtain ⟨c, _, rfl⟩ := List.mem_map.1 hr
    exact ih c

theorem copyList (hD : D0.WF) (src : Arena NodeData) {m : Nat} : ∀ (l : List Nat) (A : Arena NodeData),
    Fenced D0 b A → Within D0 b A m → ∀ A', l.foldlM (fun A c => do
      let (A, x) ← Hotmeal.cloneSubtree src c A
      A.append m x) A = Except.ok (ε := Err) A' → Fenced D0 b A' ∧ A.next ≤ A'.next
  | [], A, h, _, A', e => by cases e; exact ⟨h, Nat.le_refl _⟩
  | c :: l, A, h, hm, A', e => by
    rw [List.foldlM_cons] at e
    obtain ⟨A2, h1, e⟩ := res_bind e
    obtain ⟨⟨A3, x⟩, h2, h1⟩ := res_bind h1
    obtain ⟨h3, h4, h5⟩ := cloneSubtree hD src c A h A3 x h2
    have hm3 : Within D0 b A3 m := ⟨Nat.lt_of_lt_of_le hm.1 h4, hm.2⟩
    obtain ⟨h6, h7⟩ := h3.append hD hm3 h5 h1
    obtain ⟨h8, h9⟩ := copyList hD src l A2 h6 ⟨by rw [h7]; exact hm3.1, hm.2⟩ A' e
    exact ⟨h8, by omega⟩

/-- **The step**: any patch. -/
theorem applyPatch (hD : D0.WF) (parse : Str → Document) (h : Fenced D0 b A) {s : Slots}
    (hs : SlotsWithin D0 b A s) {P : Patch} {A' : Arena NodeData} {s' : Slots}
    (e : Hotmeal.applyPatch parse A s P = .ok (A', s')) : Fenced D0 b A' ∧ SlotsWithin D0 b A' s' := by
  cases P with
  | insertElement q tag attrs cs slot =>
    obtain ⟨h1, h2, _, _⟩ := h.newNode ⟨.element tag attrs, .html⟩
    obtain ⟨A2, h3, e⟩ := res_bind e
    obtain ⟨h4, h5⟩ := appendInsertContents hD cs h1 h2 h3
    have : A.next + 1 ≤ A2.next := h5
    obtain ⟨h6, _, h8⟩ := h4.insertAt hD (slotsWithin_mono hs (by omega))
      ⟨by show A.next < A2.next; omega, h2.2⟩ e
    exact ⟨h6, h8⟩
  | insertText q t slot =>
    obtain ⟨h1, h2, _, _⟩ := h.newNode ⟨.text t, .html⟩
    obtain ⟨h6, _, h8⟩ := h1.insertAt hD (slotsWithin_mono hs (by simp [Arena.newNode])) h2 e
    exact ⟨h6, h8⟩
  | insertComment q t slot =>
    obtain ⟨h1, h2, _, _⟩ := h.newNode ⟨.comment t, .html⟩
    obtain ⟨h6, _, h8⟩ := h1.insertAt hD (slotsWithin_mono hs (by simp [Arena.newNode])) h2 e
    exact ⟨h6, h8⟩
  | remove q =>
    obtain ⟨n, h1, e⟩ := res_bind e
    obtain ⟨A2, h2, e⟩ := res_bind e
    cases e
    obtain ⟨h3, h4⟩ := h.replaceByEmpty hD (h.navigate hs h1) h2
    exact ⟨h3, slotsWithin_mono hs h4⟩
  | setText q t =>
    obtain ⟨n, h1, e⟩ := res_bind e
    have hn := h.navigate hs h1
    split at e
    · cases e; exact ⟨h.setData hn.2 _, hs⟩
    · cases e; exact ⟨h.setData hn.2 _, hs⟩
    · cases e
  | setAttribute q k v =>
    obtain ⟨n, h1, e⟩ := res_bind e
    have hn := h.navigate hs h1
    split at e
    · cases e; exact ⟨h.setData hn.2 _, hs⟩
    · cases e
  | removeAttribute q k =>
    obtain ⟨n, h1, e⟩ := res_bind e
    have hn := h.navigate hs h1
    split at e
    · cases e; exact ⟨h.setData hn.2 _, hs⟩
    · cases e
  | move q to slot =>
    obtain ⟨n, h1, e⟩ := res_bind e
    have hn := h.navigate hs h1
    have h2 : ∃ A2, (Fenced D0 b A2 ∧ A.next ≤ A2.next) ∧ Hotmeal.insertAt A2 s to n slot = .ok (A', s') := by
      simp only at e
      split at e
      · obtain ⟨A2, h2, e⟩ := res_bind e
        exact ⟨A2, h.replaceByEmpty hD hn h2, e⟩
      · exact ⟨A.detach n, ⟨h.detach hD hn.2, by rw [Arena.detach_next]; exact Nat.le_refl _⟩, e⟩
    obtain ⟨A2, h3, e⟩ := h2
    obtain ⟨h6, _, h8⟩ := h3.1.insertAt hD (slotsWithin_mono hs h3.2)
      ⟨Nat.lt_of_lt_of_le hn.1 h3.2, hn.2⟩ e
    exact ⟨h6, h8⟩
  | updateProps q changes =>
    obtain ⟨n, h1, e⟩ := res_bind e
    have hn := h.navigate hs h1
    split at e
    · cases e; exact ⟨h.setData hn.2 _, hs⟩
    · cases e; exact ⟨h.setData hn.2 _, hs⟩
    · cases e; exact ⟨h.setData hn.2 _, hs⟩
    · cases e; exact ⟨h, hs⟩
  | opaqueChanged q content =>
    obtain ⟨n, h1, e⟩ := res_bind e
    have hn := h.navigate hs h1
    obtain ⟨A2, h2, e⟩ := res_bind e
    cases e
    obtain ⟨h3, h4⟩ := detachAll hD (A.children n) h fun m hm => (h.child hn.2 hm).2
    obtain ⟨h5, h6⟩ := copyList hD _ _ _ h3 ⟨by rw [h4]; exact hn.1, hn.2⟩ _ h2
    exact ⟨h5, slotsWithin_mono hs (by omega)⟩

theorem errorArena (hD : D0.WF) (h : Fenced D0 b A) {s : Slots} (hs : SlotsWithin D0 b A s) (P : Patch) :
    Fenced D0 b (Hotmeal.errorArena A s P) := by
  cases P with
  | insertElement q tag attrs cs slot =>
    obtain ⟨h1, h2, _, _⟩ := h.newNode ⟨.element tag attrs, .html⟩
    simp only [Hotmeal.errorArena]
    split
    · next A2 e => exact (appendInsertContents hD cs h1 h2 e).1
    · exact h1
  | insertText q t slot => exact (h.newNode _).1
  | insertComment q t slot => exact (h.newNode _).1
  | move q to slot =>
    simp only [Hotmeal.errorArena]
    split
    · exact h
    · next n e =>
      have hn := h.navigate hs e
      split
      · next A2 e2 =>
        split at e2
        · exact (h.replaceByEmpty hD hn e2).1
        · cases e2; exact h.detach hD hn.2
      · exact h
  | _ => exact h

theorem applyKeep (hD : D0.WF) (parse : Str → Document) : ∀ (ps : List Patch) {A : Arena NodeData},
    Fenced D0 b A → ∀ {s : Slots}, SlotsWithin D0 b A s → Fenced D0 b (Hotmeal.applyKeep parse A s ps).1
  | [], _, h, _, _ => h
  | p :: ps, A, h, s, hs => by
    unfold Hotmeal.applyKeep
    split
    · next A' s' e =>
      obtain ⟨h1, h2⟩ := h.applyPatch hD parse hs e
      exact applyKeep hD parse ps h1 h2
    · exact h.errorArena hD hs p

end Fenced
end Hotmeal
