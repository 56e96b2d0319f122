import Verif.Lemmas.Arena

/-!
# Closed forms of composite arena operations
-/

namespace Hotmeal
namespace Arena

variable {α : Type}

@[ext] theorem ext' {A B : Arena α} (h1 : A.next = B.next) (h2 : ∀ m, A.parent m = B.parent m)
    (h3 : ∀ m, A.children m = B.children m) (h4 : ∀ m, A.data m = B.data m) : A = B := by
  cases A; cases B
  simp only [mk.injEq] at *
  exact ⟨h1, funext h2, funext h3, funext h4⟩

theorem WF.self_parent_ne {A : Arena α} (h : A.WF) {n p : Nat} (hp : A.parent n = some p) :
    p ≠ n := by
  obtain ⟨r, hr⟩ := h.acyclic
  have := hr _ _ hp
  rintro rfl
  omega

/-! ### newNode -/

@[simp] theorem newNode_snd (A : Arena α) (d : α) : (A.newNode d).2 = A.next := rfl
@[simp] theorem newNode_next (A : Arena α) (d : α) : (A.newNode d).1.next = A.next + 1 := rfl

theorem WF.newNode_parent {A : Arena α} (h : A.WF) (d : α) (m : Nat) :
    (A.newNode d).1.parent m = A.parent m := by
  simp only [Arena.newNode, upd_apply]
  split
  · next e => subst e; exact (h.parent_ge (Nat.le_refl _)).symm
  · rfl

theorem WF.newNode_children {A : Arena α} (h : A.WF) (d : α) (m : Nat) :
    (A.newNode d).1.children m = A.children m := by
  simp only [Arena.newNode, upd_apply]
  split
  · next e => subst e; exact (h.children_ge (Nat.le_refl _)).symm
  · rfl

theorem newNode_data (A : Arena α) (d : α) (m : Nat) :
    (A.newNode d).1.data m = if m = A.next then d else A.data m := by
  simp only [Arena.newNode, upd_apply]

theorem anc_congr {A B : Arena α} (h : ∀ m, A.parent m = B.parent m) {x n : Nat} :
    A.Anc x n ↔ B.Anc x n := by
  constructor
  · intro ha
    induction ha with
    | refl => exact .refl
    | step hp _ ih => exact .step (by rw [← h]; exact hp) ih
  · intro ha
    induction ha with
    | refl => exact .refl
    | step hp _ ih => exact .step (by rw [h]; exact hp) ih

theorem WF.anc_newNode {A : Arena α} (h : A.WF) (d : α) {x n : Nat} :
    (A.newNode d).1.Anc x n ↔ A.Anc x n :=
  anc_congr (h.newNode_parent d)

/-- Ancestors of a node in use are in use. -/
theorem WF.anc_lt {A : Arena α} (h : A.WF) {x n : Nat} (ha : A.Anc x n) (hn : n < A.next) :
    x < A.next := by
  induction ha with
  | refl => exact hn
  | step hp _ ih => exact ih ((h.lt_of_parent _ _ hp).2)

/-! ### attaching a parentless node -/

theorem detach_of_parent_none {A : Arena α} {c : Nat} (h : A.parent c = none) : A.detach c = A := by
  unfold detach; rw [h]

theorem appendRaw_of_parent_none {A : Arena α} {p c : Nat} (h : A.parent c = none) :
    A.appendRaw p c = { A with
      parent := upd A.parent c (some p)
      children := upd A.children p (A.children p ++ [c]) } := by
  unfold appendRaw; rw [detach_of_parent_none h]

theorem WF.append_ok {A : Arena α} (h : A.WF) {p c : Nat} (hanc : ¬ A.Anc c p) :
    A.append p c = .ok (A.appendRaw p c) := by
  unfold Arena.append
  split
  · next e => exact absurd ((h.isAncestorOrSelf_iff c p).1 e) hanc
  · rfl

/-- The fact announced at `Arena.addChild`: appending a fresh node never panics. -/
theorem WF.append_newNode {A : Arena α} (h : A.WF) {p : Nat} (hp : p < A.next) (d : α) :
    (A.newNode d).1.append p A.next = .ok (A.addChild p d).1 := by
  rw [(h.newNode d).append_ok]
  · rfl
  · rw [h.anc_newNode]
    intro ha
    have := h.anc_lt ha hp
    omega

theorem WF.addChild {A : Arena α} (h : A.WF) {p : Nat} (hp : p < A.next) (d : α) :
    (A.addChild p d).1.WF := by
  have hn := h.newNode d
  apply hn.appendRaw
  · simp only [newNode_next]; omega
  · simp [Arena.newNode]
  · rw [h.anc_newNode]
    intro ha
    have := h.anc_lt ha hp
    omega

@[simp] theorem addChild_snd (A : Arena α) (p : Nat) (d : α) : (A.addChild p d).2 = A.next := rfl

theorem addChild_next (A : Arena α) (p : Nat) (d : α) : (A.addChild p d).1.next = A.next + 1 := by
  simp only [Arena.addChild, appendRaw, detach_next, newNode_next]

theorem WF.addChild_parent {A : Arena α} (h : A.WF) (p : Nat) (d : α) (m : Nat) :
    (A.addChild p d).1.parent m = if m = A.next then some p else A.parent m := by
  have : (A.newNode d).1.parent A.next = none := by simp [Arena.newNode]
  simp only [Arena.addChild]
  show ((A.newNode d).1.appendRaw p (A.newNode d).2).parent m = _
  rw [newNode_snd, appendRaw_of_parent_none this]
  simp only [upd_apply]
  split
  · rfl
  · exact h.newNode_parent d m

theorem WF.addChild_children {A : Arena α} (h : A.WF) (p : Nat) (d : α) (m : Nat) :
    (A.addChild p d).1.children m = if m = p then A.children p ++ [A.next] else A.children m := by
  have : (A.newNode d).1.parent A.next = none := by simp [Arena.newNode]
  simp only [Arena.addChild]
  show ((A.newNode d).1.appendRaw p (A.newNode d).2).children m = _
  rw [newNode_snd, appendRaw_of_parent_none this]
  simp only [upd_apply]
  split
  · rw [h.newNode_children]
  · exact h.newNode_children d m

theorem addChild_data (A : Arena α) (p : Nat) (d : α) (m : Nat) :
    (A.addChild p d).1.data m = if m = A.next then d else A.data m := by
  simp only [Arena.addChild, appendRaw, detach_data]
  exact newNode_data A d m

/-! ### list forms -/

theorem insBefore_append {l r : List Nat} {s x : Nat} (hs : s ∉ l) :
    insBefore s x (l ++ s :: r) = l ++ x :: s :: r := by
  induction l with
  | nil => simp [insBefore]
  | cons y ys ih =>
    simp only [List.mem_cons, not_or] at hs
    simp [insBefore, Ne.symm hs.1, ih hs.2]

theorem insAfter_append {l r : List Nat} {s x : Nat} (hs : s ∉ l) :
    insAfter s x (l ++ s :: r) = l ++ s :: x :: r := by
  induction l with
  | nil => simp [insAfter]
  | cons y ys ih =>
    simp only [List.mem_cons, not_or] at hs
    simp [insAfter, Ne.symm hs.1, ih hs.2]

/-- Replacing one element of a duplicate-free list. -/
def swapIn (n e : Nat) (l : List Nat) : List Nat := l.map fun x => if x = n then e else x

theorem filter_insBefore {l : List Nat} {n e : Nat} (hl : l.Nodup) (he : e ∉ l) (hne : e ≠ n) :
    (insBefore n e l).filter (· ≠ n) = swapIn n e l := by
  induction l with
  | nil => rfl
  | cons y ys ih =>
    rw [List.nodup_cons] at hl
    simp only [List.mem_cons, not_or] at he
    simp only [insBefore, swapIn, List.map_cons]
    by_cases hy : y = n
    · subst hy
      simp only [if_true, List.filter_cons, ne_eq, hne, not_false_eq_true, decide_true,
        not_true_eq_false, decide_false]
      congr 1
      have h1 : ys.filter (fun x => decide (x ≠ y)) = ys := by
        rw [List.filter_eq_self]; intro x hx; simp; rintro rfl; exact hl.1 hx
      have h2 : ys.map (fun x => if x = y then e else x) = ys := by
        conv => rhs; rw [← List.map_id ys]
        apply List.map_congr_left
        intro x hx
        have : x ≠ y := by rintro rfl; exact hl.1 hx
        simp [this]
      rw [h2]; exact h1
    · simp only [hy, if_false, List.filter_cons, ne_eq, not_false_eq_true, decide_true, if_true]
      congr 1
      exact ih hl.2 he.2

theorem swapIn_of_not_mem {l : List Nat} {n e : Nat} (h : n ∉ l) : swapIn n e l = l := by
  unfold swapIn
  conv => rhs; rw [← List.map_id l]
  apply List.map_congr_left
  intro x hx
  have : x ≠ n := by rintro rfl; exact h hx
  simp [this]

theorem swapIn_append {l r : List Nat} {n e : Nat} :
    swapIn n e (l ++ r) = swapIn n e l ++ swapIn n e r := by simp [swapIn]

theorem mem_swapIn {l : List Nat} {n e x : Nat} (hn : n ∈ l) :
    x ∈ swapIn n e l ↔ x = e ∨ (x ∈ l ∧ x ≠ n) := by
  simp only [swapIn, List.mem_map]
  constructor
  · rintro ⟨y, hy, rfl⟩
    by_cases h : y = n
    · simp [h]
    · simp [h, hy]
  · rintro (rfl | ⟨h1, h2⟩)
    · exact ⟨n, hn, by simp⟩
    · exact ⟨x, h1, by simp [h2]⟩

theorem swapIn_getElem? (l : List Nat) (n e i : Nat) :
    (swapIn n e l)[i]? = (l[i]?).map (fun x => if x = n then e else x) := by
  simp [swapIn]

theorem swapIn_length (l : List Nat) (n e : Nat) : (swapIn n e l).length = l.length := by
  simp [swapIn]

/-! ### replacing a node by a fresh one -/

/-- `A'` is `A` with the child `n` of `p` replaced by the fresh node `e = A.next`. -/
structure Replaced (A A' : Arena α) (n p : Nat) (d : α) : Prop where
  wf : A'.WF
  next : A'.next = A.next + 1
  parent : ∀ m, A'.parent m = if m = n then none else if m = A.next then some p else A.parent m
  children : ∀ m, A'.children m =
    if m = p then swapIn n A.next (A.children p) else A.children m
  data : ∀ m, A'.data m = if m = A.next then d else A.data m

theorem WF.replace {A : Arena α} (h : A.WF) {n p : Nat} (hp : A.parent n = some p) (d : α) :
    ∃ A1 A', (A.newNode d).1.insertBefore n A.next = .ok A1 ∧ A1.detach n = A' ∧
      Replaced A A' n p d := by
  have hlt := h.lt_of_parent _ _ hp
  have hN := h.newNode d
  have hpar : (A.newNode d).1.parent A.next = none := by simp [Arena.newNode]
  have hne : n ≠ A.next := by omega
  have hpn : p ≠ A.next := by omega
  have hnp : p ≠ n := h.self_parent_ne hp
  have e1 : (A.newNode d).1.insertBefore n A.next = .ok { (A.newNode d).1 with
      parent := upd (A.newNode d).1.parent A.next (some p)
      children := upd (A.newNode d).1.children p
        (insBefore n A.next ((A.newNode d).1.children p)) } := by
    unfold Arena.insertBefore
    rw [if_neg hne, detach_of_parent_none hpar]
    simp only [h.newNode_parent, hp]
    rw [if_neg hpn]
  have hanc : ¬ (A.newNode d).1.Anc A.next n := by
    rw [h.anc_newNode]; intro ha; have := h.anc_lt ha hlt.1; omega
  have hW1 := hN.insertBefore (by simp [Arena.newNode]) hanc e1
  refine ⟨_, _, e1, rfl, ?_⟩
  refine ⟨hW1.detach n, by rw [detach_next]; rfl, ?_, ?_, ?_⟩
  · intro m
    rw [detach_parent]
    simp only [upd_apply, h.newNode_parent]
  · intro m
    rw [hW1.detach_children]
    simp only [upd_apply]
    split
    · next e =>
      subst e
      rw [h.newNode_children]
      apply filter_insBefore (h.nodup _) _ (Ne.symm hne)
      intro hm
      have := (h.lt_of_parent _ _ ((h.mem_iff _ _).1 hm)).1
      omega
    · next e =>
      rw [h.newNode_children, List.filter_eq_self]
      intro x hx
      simp
      rintro rfl
      rw [h.mem_iff, hp] at hx
      cases hx; exact e rfl
  · intro m
    rw [detach_data]
    exact newNode_data A d m

/-! ### placing a parentless node before an occupant, or last -/

/-- Put the parentless node `x` before the child of `p` at index `pos`. -/
theorem WF.insert_at {A : Arena α} (h : A.WF) {p pos x occ : Nat}
    (hocc : (A.children p)[pos]? = some occ) (hx : x < A.next) (hxp : A.parent x = none)
    (hanc : ¬ A.Anc x p) :
    ∃ A', A.insertBefore occ x = .ok A' ∧ A'.WF ∧ A'.next = A.next ∧
      (∀ m, A'.parent m = if m = x then some p else A.parent m) ∧
      (∀ m, A'.children m = if m = p then
        (A.children p).take pos ++ x :: (A.children p).drop pos else A.children m) ∧
      (∀ m, A'.data m = A.data m) := by
  have hmem : occ ∈ A.children p := List.mem_of_getElem? hocc
  have hp : A.parent occ = some p := (h.mem_iff _ _).1 hmem
  have hne : occ ≠ x := by rintro rfl; rw [hp] at hxp; cases hxp
  have hpx : p ≠ x := by rintro rfl; exact hanc .refl
  have e1 : A.insertBefore occ x = .ok { A with
      parent := upd A.parent x (some p)
      children := upd A.children p (insBefore occ x (A.children p)) } := by
    unfold Arena.insertBefore
    rw [if_neg hne, detach_of_parent_none hxp]
    simp only [hp]
    rw [if_neg hpx]
  refine ⟨_, e1, ?_, rfl, fun m => upd_apply _ _ _ _, ?_, fun m => rfl⟩
  · refine h.insertBefore hx ?_ e1
    intro ha
    rcases ha.cases' with rfl | ⟨q, hq, ha'⟩
    · exact hne rfl
    · rw [hp] at hq; cases hq; exact hanc ha'
  · intro m
    simp only [upd_apply]
    split
    · have hlt : pos < (A.children p).length := by
        rcases Nat.lt_or_ge pos (A.children p).length with h' | h'
        · exact h'
        · rw [List.getElem?_eq_none h'] at hocc; cases hocc
      have hsplit : A.children p = (A.children p).take pos ++ occ :: (A.children p).drop (pos + 1) := by
        have : (A.children p).drop pos = occ :: (A.children p).drop (pos + 1) := by
          rw [List.drop_eq_getElem_cons hlt]
          rw [List.getElem?_eq_getElem hlt] at hocc
          cases hocc; rfl
        rw [← this, List.take_append_drop]
      have hnot : occ ∉ (A.children p).take pos := by
        have hnd := h.nodup p
        rw [hsplit, List.nodup_append] at hnd
        intro hm
        exact hnd.2.2 occ hm occ (by simp) rfl
      have hdrop : (A.children p).drop pos = occ :: (A.children p).drop (pos + 1) := by
        rw [List.drop_eq_getElem_cons hlt]
        rw [List.getElem?_eq_getElem hlt] at hocc
        cases hocc; rfl
      rw [hdrop]
      conv => lhs; rw [hsplit]
      exact insBefore_append hnot
    · rfl

/-- Append the parentless node `x` to `p`. -/
theorem WF.append_at {A : Arena α} (h : A.WF) {p x : Nat} (hp : p < A.next) (hx : x < A.next)
    (hxp : A.parent x = none) (hanc : ¬ A.Anc x p) :
    ∃ A', A.append p x = .ok A' ∧ A'.WF ∧ A'.next = A.next ∧
      (∀ m, A'.parent m = if m = x then some p else A.parent m) ∧
      (∀ m, A'.children m = if m = p then A.children p ++ [x] else A.children m) ∧
      (∀ m, A'.data m = A.data m) := by
  refine ⟨_, h.append_ok hanc, h.appendRaw hp hx hanc, ?_, ?_, ?_, ?_⟩ <;>
    rw [appendRaw_of_parent_none hxp]
  · exact fun m => upd_apply _ _ _ _
  · exact fun m => upd_apply _ _ _ _
  · exact fun m => rfl

end Arena
end Hotmeal
