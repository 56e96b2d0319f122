import Verif.Model.Api
import Verif.Spec.Sound

/-!
# Editing API: C18
-/

namespace Hotmeal
namespace Document

/-- The node arguments of a call are nodes of the document, and `insert_before` /
`insert_after` do not place a node under itself. (`append_child` checks this and panics.) -/
def Safe (D : Document) : ApiCall → Prop
  | .appendChild p c => p < D.arena.next ∧ c < D.arena.next
  | .insertBefore sib new => new < D.arena.next ∧ ¬ D.arena.Anc new sib
  | .insertAfter sib new => new < D.arena.next ∧ ¬ D.arena.Anc new sib
  | _ => True

/-- As `Safe`, and only elements (or a document node) are given children, and a document node is
never placed anywhere. -/
def SafeTyped (D : Document) (c : ApiCall) : Prop :=
  D.Safe c ∧ match c with
    | .appendChild p c => D.arena.Container p ∧ (D.arena.data c).kind ≠ .document
    | .insertBefore _ new => (D.arena.data new).kind ≠ .document
    | .insertAfter _ new => (D.arena.data new).kind ≠ .document
    | _ => True

/-- Documents reachable from `D` by calls satisfying `ok` that return normally. -/
inductive Reach (ok : Document → ApiCall → Prop) (D : Document) : Document → Prop
  | refl : Reach ok D D
  | step {E F : Document} {c : ApiCall} :
      Reach ok D E → ok E c → E.run c = .ok F → Reach ok D F

theorem run_bind_ok {X : Res (Arena NodeData)} {D F : Document}
    (h : (do let A ← X; .ok (D.withArena A) : Res Document) = .ok F) :
    ∃ A, X = .ok A ∧ F = D.withArena A := by
  cases X with
  | error e => cases h
  | ok A => cases h; exact ⟨A, rfl, rfl⟩

theorem setAttr_arena (D : Document) (n : Nat) (k : QualName) (v : Str) :
    ((D.setAttr n k v).arena = D.arena ∧ (D.setAttr n k v).root = D.root) ∨
    ∃ tag a ns, D.arena.data n = ⟨.element tag a, ns⟩ ∧ (D.setAttr n k v).root = D.root ∧
      (D.setAttr n k v).arena = D.arena.setData n ⟨.element tag (setAttrList k v a), ns⟩ := by
  unfold setAttr
  split
  · next tag a ns h => right; exact ⟨tag, a, ns, h, rfl, rfl⟩
  · left; exact ⟨rfl, rfl⟩

theorem removeAttr_arena (D : Document) (n : Nat) (k : QualName) :
    ((D.removeAttr n k).arena = D.arena ∧ (D.removeAttr n k).root = D.root) ∨
    ∃ tag a ns, D.arena.data n = ⟨.element tag a, ns⟩ ∧ (D.removeAttr n k).root = D.root ∧
      (D.removeAttr n k).arena = D.arena.setData n ⟨.element tag (removeAttrList k a), ns⟩ := by
  unfold removeAttr
  split
  · next tag a ns h => right; exact ⟨tag, a, ns, h, rfl, rfl⟩
  · left; exact ⟨rfl, rfl⟩

theorem setText_arena (D : Document) (n : Nat) (s : Str) :
    ((D.setTextApi n s).arena = D.arena ∧ (D.setTextApi n s).root = D.root) ∨
    ∃ t ns, D.arena.data n = ⟨.text t, ns⟩ ∧ (D.setTextApi n s).root = D.root ∧
      (D.setTextApi n s).arena = D.arena.setData n ⟨.text s, ns⟩ := by
  unfold setTextApi
  split
  · next t ns h => right; exact ⟨t, ns, h, rfl, rfl⟩
  · left; exact ⟨rfl, rfl⟩

theorem run_wf {D F : Document} {c : ApiCall} (h : D.arena.WF) (hs : D.Safe c)
    (e : D.run c = .ok F) : F.arena.WF := by
  cases c with
  | createElement tag => cases e; exact h.newNode _
  | createText s => cases e; exact h.newNode _
  | createComment s => cases e; exact h.newNode _
  | appendChild p c =>
    obtain ⟨A, hA, rfl⟩ := run_bind_ok e
    unfold Arena.append at hA
    split at hA
    · cases hA
    · next hn =>
      cases hA
      exact h.appendRaw hs.1 hs.2 (fun ha => hn ((h.isAncestorOrSelf_iff c p).2 ha))
  | insertBefore sib new =>
    obtain ⟨A, hA, rfl⟩ := run_bind_ok e
    exact h.insertBefore hs.1 hs.2 hA
  | insertAfter sib new =>
    obtain ⟨A, hA, rfl⟩ := run_bind_ok e
    exact h.insertAfter hs.1 hs.2 hA
  | remove n => cases e; exact h.detach n
  | setAttr n k v =>
    cases e
    rcases D.setAttr_arena n k v with ⟨e, _⟩ | ⟨_, _, _, _, _, e⟩ <;> rw [e]
    · exact h
    · exact h.setData _ _
  | removeAttr n k =>
    cases e
    rcases D.removeAttr_arena n k with ⟨e, _⟩ | ⟨_, _, _, _, _, e⟩ <;> rw [e]
    · exact h
    · exact h.setData _ _
  | setText n s =>
    cases e
    rcases D.setText_arena n s with ⟨e, _⟩ | ⟨_, _, _, _, e⟩ <;> rw [e]
    · exact h
    · exact h.setData _ _

/-- **C18.** Any sequence of editing calls that does not place a node under itself keeps parent and
child links consistent, child lists free of duplicates, and the links free of cycles
(`Arena.WF`). -/
theorem C18_links_stay_a_tree {D E : Document} (h : D.arena.WF) (r : Reach Safe D E) :
    E.arena.WF := by
  induction r with
  | refl => exact h
  | step _ hs e ih => exact run_wf ih hs e

theorem run_sound {D F : Document} {c : ApiCall} (h : D.Sound) (hs : D.SafeTyped c)
    (e : D.run c = .ok F) : F.Sound := by
  obtain ⟨hs1, hs2⟩ := hs
  cases c with
  | createElement tag =>
    cases e
    exact ⟨h.arena.newNode _ (by intro t a e; cases e; exact List.nodup_nil), Nat.lt_succ_of_lt h.root_lt⟩
  | createText s =>
    cases e
    exact ⟨h.arena.newNode _ (by intro t a e; cases e), Nat.lt_succ_of_lt h.root_lt⟩
  | createComment s =>
    cases e
    exact ⟨h.arena.newNode _ (by intro t a e; cases e), Nat.lt_succ_of_lt h.root_lt⟩
  | appendChild p c =>
    obtain ⟨A, hA, rfl⟩ := run_bind_ok e
    exact ⟨h.arena.append hs1.1 hs1.2 hs2.1 hs2.2 hA, by
      show D.root < A.next; rw [(Arena.append_data hA).2]; exact h.root_lt⟩
  | insertBefore sib new =>
    obtain ⟨A, hA, rfl⟩ := run_bind_ok e
    exact ⟨h.arena.insertBefore hs1.1 hs1.2 hs2 hA, by
      show D.root < A.next; rw [(Arena.insertBefore_data hA).2]; exact h.root_lt⟩
  | insertAfter sib new =>
    obtain ⟨A, hA, rfl⟩ := run_bind_ok e
    refine ⟨h.arena.insertAfter hs1.1 hs1.2 hs2 hA, ?_⟩
    show D.root < A.next
    have : A.next = D.arena.next := by
      unfold Arena.insertAfter at hA
      split at hA
      · cases hA
      · simp only at hA
        split at hA
        · cases hA; exact Arena.detach_next _ _
        · split at hA
          · cases hA
          · cases hA; exact Arena.detach_next _ _
    rw [this]; exact h.root_lt
  | remove n =>
    cases e
    exact ⟨h.arena.detach n, by show D.root < (D.arena.detach n).next; rw [Arena.detach_next]; exact h.root_lt⟩
  | setAttr n k v =>
    cases e
    rcases D.setAttr_arena n k v with ⟨e, e2⟩ | ⟨t, a, ns, hd, e2, e⟩
    · exact ⟨by rw [e]; exact h.arena, by rw [e, e2]; exact h.root_lt⟩
    · refine ⟨?_, by rw [e, e2]; exact h.root_lt⟩
      rw [e]
      apply h.arena.setData
      · rintro (⟨s, hs⟩ | ⟨s, hs⟩) <;> cases hs
      · intro t' a' e'; cases e'
        exact C19_set_unique a k v (h.arena.uniq n t a (by rw [hd]))
      · intro e'; cases e'
  | removeAttr n k =>
    cases e
    rcases D.removeAttr_arena n k with ⟨e, e2⟩ | ⟨t, a, ns, hd, e2, e⟩
    · exact ⟨by rw [e]; exact h.arena, by rw [e, e2]; exact h.root_lt⟩
    · refine ⟨?_, by rw [e, e2]; exact h.root_lt⟩
      rw [e]
      apply h.arena.setData
      · rintro (⟨s, hs⟩ | ⟨s, hs⟩) <;> cases hs
      · intro t' a' e'; cases e'
        exact C19_remove_unique a k (h.arena.uniq n t a (by rw [hd]))
      · intro e'; cases e'
  | setText n s =>
    cases e
    rcases D.setText_arena n s with ⟨e, e2⟩ | ⟨t, ns, hd, e2, e⟩
    · exact ⟨by rw [e]; exact h.arena, by rw [e, e2]; exact h.root_lt⟩
    · refine ⟨?_, by rw [e, e2]; exact h.root_lt⟩
      rw [e]
      apply h.arena.setData
      · intro _; exact h.arena.leaf n (.inl ⟨t, by rw [hd]⟩)
      · intro t' a' e'; cases e'
      · intro e'; cases e'

/-- **C18.** With typed calls (children only below elements), soundness of the whole document is
kept: also leaf nodes stay leaves and attribute names stay unique. -/
theorem C18_api_keeps_sound {D E : Document} (h : D.Sound) (r : Reach SafeTyped D E) : E.Sound := by
  induction r with
  | refl => exact h
  | step _ hs e ih => exact run_sound ih hs e

/-- **C18.** `append_child(p, c)` either panics (when `c` is `p` or an ancestor of `p`) or makes `c`
the last child of `p`, removing it from where it was and leaving everything else in order. -/
theorem C18_append_effect (A : Arena NodeData) (h : A.WF) (p c : Nat) :
    (A.Anc c p → A.append p c = .error .panic) ∧
    (¬ A.Anc c p → ∃ A', A.append p c = .ok A' ∧ A'.parent c = some p ∧
      A'.children p = (A.children p).filter (· ≠ c) ++ [c] ∧
      (∀ q, q ≠ p → A'.children q = (A.children q).filter (· ≠ c)) ∧
      (∀ m, m ≠ c → A'.parent m = A.parent m) ∧ A'.data = A.data) := by
  constructor
  · intro ha
    unfold Arena.append
    rw [if_pos ((h.isAncestorOrSelf_iff c p).2 ha)]
  · intro ha
    refine ⟨_, h.append_ok ha, ?_, ?_, ?_, ?_, ?_⟩
    · simp [Arena.appendRaw]
    · simp [Arena.appendRaw, h.detach_children]
    · intro q hq; simp [Arena.appendRaw, Arena.upd_apply, hq, h.detach_children]
    · intro m hm; simp [Arena.appendRaw, Arena.upd_apply, hm, Arena.detach_parent]
    · simp [Arena.appendRaw, Arena.detach_data]

/-- **C18.** `insert_before(sib, x)` puts `x` directly before `sib` and changes nothing else;
`insert_after` puts it directly after. -/
theorem C18_insert_effect (A : Arena NodeData) (h : A.WF) (p sib x : Nat)
    (hp : A.parent sib = some p) (hanc : ¬ A.Anc x sib) :
    ∃ l r, (A.children p).filter (· ≠ x) = l ++ sib :: r ∧
      (∃ A', A.insertBefore sib x = .ok A' ∧ A'.parent x = some p ∧
        A'.children p = l ++ x :: sib :: r ∧
        (∀ q, q ≠ p → A'.children q = (A.children q).filter (· ≠ x)) ∧
        (∀ m, m ≠ x → A'.parent m = A.parent m) ∧ A'.data = A.data) ∧
      (∃ A', A.insertAfter sib x = .ok A' ∧ A'.parent x = some p ∧
        A'.children p = l ++ sib :: x :: r ∧
        (∀ q, q ≠ p → A'.children q = (A.children q).filter (· ≠ x)) ∧
        (∀ m, m ≠ x → A'.parent m = A.parent m) ∧ A'.data = A.data) := by
  have hne : sib ≠ x := by rintro rfl; exact hanc .refl
  have hpx : p ≠ x := by rintro rfl; exact hanc (.step hp .refl)
  have hmem : sib ∈ (A.children p).filter (· ≠ x) := by
    rw [List.mem_filter]; exact ⟨(h.mem_iff _ _).2 hp, by simpa using hne⟩
  obtain ⟨l, r, hlr⟩ := List.append_of_mem hmem
  have hnd : ((A.children p).filter (· ≠ x)).Nodup := (h.nodup p).filter _
  have hl : sib ∉ l := by
    rw [hlr, List.nodup_append] at hnd
    intro hm; exact hnd.2.2 sib hm sib (by simp) rfl
  have hpd : (A.detach x).parent sib = some p := by rw [Arena.detach_parent, if_neg hne, hp]
  have e1 : A.insertBefore sib x = .ok { A.detach x with
      parent := Arena.upd (A.detach x).parent x (some p),
      children := Arena.upd (A.detach x).children p
        (Arena.insBefore sib x ((A.detach x).children p)) } := by
    unfold Arena.insertBefore
    rw [if_neg hne]
    simp only [hpd]
    rw [if_neg hpx]
  have e2 : A.insertAfter sib x = .ok { A.detach x with
      parent := Arena.upd (A.detach x).parent x (some p),
      children := Arena.upd (A.detach x).children p
        (Arena.insAfter sib x ((A.detach x).children p)) } := by
    unfold Arena.insertAfter
    rw [if_neg hne]
    simp only [hpd]
    rw [if_neg hpx]
  refine ⟨l, r, hlr, ⟨_, e1, ?_⟩, ⟨_, e2, ?_⟩⟩
  · refine ⟨by simp, ?_, ?_, ?_, Arena.detach_data A x⟩
    · simp only [Arena.upd_same, h.detach_children]
      rw [hlr]; exact Arena.insBefore_append hl
    · intro q hq; simp [Arena.upd_apply, hq, h.detach_children]
    · intro m hm; simp [Arena.upd_apply, hm, Arena.detach_parent]
  · refine ⟨by simp, ?_, ?_, ?_, Arena.detach_data A x⟩
    · simp only [Arena.upd_same, h.detach_children]
      rw [hlr]; exact Arena.insAfter_append hl
    · intro q hq; simp [Arena.upd_apply, hq, h.detach_children]
    · intro m hm; simp [Arena.upd_apply, hm, Arena.detach_parent]

/-- **C18.** `remove(n)` takes `n` out of its parent's children and changes nothing else; the
subtree below `n` stays attached to `n`. -/
theorem C18_remove_effect (A : Arena NodeData) (h : A.WF) (n : Nat) :
    (A.detach n).parent n = none ∧
    (∀ q, (A.detach n).children q = (A.children q).filter (· ≠ n)) ∧
    (∀ m, m ≠ n → (A.detach n).parent m = A.parent m) ∧ (A.detach n).data = A.data ∧
    (A.detach n).children n = A.children n := by
  refine ⟨by simp [Arena.detach_parent], h.detach_children n, ?_, Arena.detach_data A n, ?_⟩
  · intro m hm; simp [Arena.detach_parent, hm]
  · rw [h.detach_children, List.filter_eq_self]
    intro x hx
    simp
    rintro rfl
    exact h.self_parent_ne ((h.mem_iff _ _).1 hx) rfl

/-- The effect of creating a node with the given data: a node that was not there before, without
parent and children; everything else is as before. -/
structure NewNode (D E : Document) (d : NodeData) : Prop where
  next : E.arena.next = D.arena.next + 1
  data : E.arena.data D.arena.next = d
  parent : E.arena.parent D.arena.next = none
  children : E.arena.children D.arena.next = []
  root : E.root = D.root
  doctype : E.doctype = D.doctype
  keep : ∀ m, m < D.arena.next → E.arena.data m = D.arena.data m ∧
    E.arena.parent m = D.arena.parent m ∧ E.arena.children m = D.arena.children m

/-- **C18.** What the `create_…` calls do. -/
theorem C18_create_effect (D : Document) (h : D.arena.WF) (s : Str) :
    (∃ E, D.run (.createElement s) = .ok E ∧ NewNode D E ⟨.element s [], .html⟩) ∧
    (∃ E, D.run (.createText s) = .ok E ∧ NewNode D E ⟨.text s, .html⟩) ∧
    (∃ E, D.run (.createComment s) = .ok E ∧ NewNode D E ⟨.comment s, .html⟩) := by
  have key : ∀ d, NewNode D (D.withArena (D.arena.newNode d).1) d := by
    intro d
    refine ⟨Arena.newNode_next _ _, ?_, ?_, ?_, rfl, rfl, fun m hm => ⟨?_, ?_, ?_⟩⟩
    · show (D.arena.newNode d).1.data _ = _
      rw [Arena.newNode_data, if_pos rfl]
    · simp [withArena, Arena.newNode]
    · simp [withArena, Arena.newNode]
    · show (D.arena.newNode d).1.data _ = _
      rw [Arena.newNode_data, if_neg (by omega)]
    · simp [withArena, Arena.newNode, Arena.upd_apply, Nat.ne_of_lt hm]
    · simp [withArena, Arena.newNode, Arena.upd_apply, Nat.ne_of_lt hm]
  exact ⟨⟨_, rfl, key _⟩, ⟨_, rfl, key _⟩, ⟨_, rfl, key _⟩⟩

/-- A document that starts sound: the empty document of `Document::new`. -/
theorem new_sound : Document.new.Sound := by
  have h0 : (⟨0, fun _ => none, fun _ => [], fun _ => default⟩ : Arena NodeData).Sound := by
    refine ⟨⟨?_, ?_, ?_, ⟨fun _ => 0, ?_⟩⟩, ?_, ?_, ?_⟩
    · intro c p h; cases h
    · intro c p; simp
    · intro p; exact List.nodup_nil
    · intro c p h; cases h
    · intro n _; rfl
    · intro n tag attrs h
      simp only [show (default : NodeData).kind = NodeKind.document from rfl] at h
      cases h
    · intro n p h; cases h
  have h1 := h0.newNode (elem "html".toList) (by intro t a e; cases e; exact List.nodup_nil)
  have addc : ∀ (A : Arena NodeData) (tag : Str), A.Sound → 0 < A.next → A.Container 0 →
      (A.addChild 0 (elem tag)).1.Sound ∧ (A.addChild 0 (elem tag)).1.Container 0 := by
    intro A tag hA hn hc
    refine ⟨?_, ?_⟩
    · have hN := hA.newNode (elem tag) (by intro t a e; cases e; exact List.nodup_nil)
      apply hN.append (p := 0) (c := A.next) (by simp) (by simp) _ _ (hA.wf.append_newNode hn _)
      · unfold Arena.Container; rw [Arena.newNode_data, if_neg (by omega)]; exact hc
      · rw [Arena.newNode_data, if_pos rfl]; intro h; cases h
    · unfold Arena.Container; rw [Arena.addChild_data, if_neg (by omega)]; exact hc
  have hc1 : ((⟨0, fun _ => none, fun _ => [], fun _ => default⟩ : Arena NodeData).newNode
      (elem "html".toList)).1.Container 0 := .inr ⟨"html".toList, [], rfl⟩
  obtain ⟨h2, c2⟩ := addc _ "head".toList h1 (by simp) hc1
  obtain ⟨h3, _⟩ := addc _ "body".toList h2 (by rw [Arena.addChild_next]; omega) c2
  refine ⟨h3, ?_⟩
  decide

/-- A run meeting the hypotheses: create an element, put it in the body, move the body's child. -/
example : ∃ E, Reach SafeTyped Document.new E ∧ E.arena.children 2 = [4, 3] := by
  have hdata : Document.new.arena.data 2 = elem "body".toList := rfl
  refine ⟨_, .step (c := .insertBefore 3 4) (.step (c := .createText "x".toList) (.step (c := .appendChild 2 3)
    (.step (c := .createElement "p".toList) .refl ⟨trivial, trivial⟩ rfl)
    ⟨⟨by decide, by decide⟩, .inr ⟨"body".toList, [], rfl⟩, by decide⟩ rfl)
    ⟨trivial, trivial⟩ rfl) ⟨⟨by decide, ?_⟩, by decide⟩ rfl, rfl⟩
  intro ha
  rcases ha.cases' with h | ⟨p, hp, ha⟩
  · cases h
  · have : p = 2 := by
      have : (some 2 : Option Nat) = some p := hp
      cases this; rfl
    subst this
    rcases ha.cases' with h | ⟨p, hp, ha⟩
    · cases h
    · have : p = 0 := by
        have : (some 0 : Option Nat) = some p := hp
        cases this; rfl
      subst this
      rcases ha.cases' with h | ⟨p, hp, ha⟩
      · cases h
      · cases hp

end Document
end Hotmeal
